import Verif.Lemmas.Scalar
/-!
# C07–C21: null, boolean, enum, string, number, integer

For every behaviour of the external libraries, of references and every iteration order.
-/
namespace Jsval

variable (ext : Ext) (ρ : RefSem) (σ : Sched)

/-! ## C07 -/

/-- C07: `EmptyConstraint` accepts every value and changes nothing. -/
theorem C07_empty (v : GoVal) : (denote ext ρ .empty).val σ v = (.ok, v) := by simp [denote]

/-- C07: `NullConstraint` accepts exactly nil and the nil chans, funcs, maps, pointers and slices. -/
theorem C07_null_exact (v : GoVal) : (denote ext ρ .null).AcceptsBy σ v ↔ NilLike v := by
  unfold Sem.AcceptsBy
  simp only [denote, pureV]
  constructor
  · intro h
    cases v with
    | nil => exact .nil
    | slice b xs => cases b <;> [simp [nullCheck, valueOf] at h; exact .slice _]
    | map b xs => cases b <;> [simp [nullCheck, valueOf] at h; exact .map _]
    | mapOther b n => cases b <;> [simp [nullCheck, valueOf] at h; exact .mapOther _]
    | ptr p => cases p <;> [exact .ptr; simp [nullCheck, valueOf] at h]
    | iface x => cases x <;> first | exact .iface | simp [nullCheck, valueOf] at h
    | other k b => cases k <;> cases b <;> first | exact .chan | exact .func | simp [nullCheck, valueOf] at h
    | _ => simp [nullCheck, valueOf] at h
  · intro h; cases h <;> rfl

example : (sem0 .null).AcceptsBy sched0 (.slice true []) := rfl
example : ¬ (sem0 .null).AcceptsBy sched0 (.slice false []) := by
  unfold Sem.AcceptsBy; decide
example : ¬ (sem0 .null).AcceptsBy sched0 (.ptr (some .nil)) := by
  unfold Sem.AcceptsBy; decide

/-! ## C08 -/

/-- C08: `Boolean()` (with or without a default) accepts exactly the bools: no pointers, no coercion. -/
theorem C08_boolean_exact (d : Option GoVal) (v : GoVal) :
    (denote ext ρ (.boolean d)).AcceptsBy σ v ↔ ∃ b, v = .bool b := by
  unfold Sem.AcceptsBy
  simp only [denote, pureV]
  cases v <;> simp [boolCheck, valueOf]

example : (sem0 (.boolean none)).AcceptsBy sched0 (.bool false) := rfl
example : ¬ (sem0 (.boolean none)).AcceptsBy sched0 (.ptr (some (.bool false))) := by
  unfold Sem.AcceptsBy; decide

/-! ## C09 -/

/-- C09: on scalars, `Enum` accepts exactly the values equal (same type, equal value) to an entry, whatever
the entries are, and always returns. -/
theorem C09_enum_exact (es : List GoVal) (v : GoVal) (hv : Scalar v) :
    ((denote ext ρ (.enum es)).AcceptsBy σ v ↔ ∃ e ∈ es, SameGo e v) ∧
    ((denote ext ρ (.enum es)).val σ v).1.Normal := by
  unfold Sem.AcceptsBy
  simp only [denote, pureV]
  exact enumCheck_scalar hv es

/-- C09: a slice or map is never accepted; the call panics iff some entry is a slice (map) too, and
otherwise returns an error. -/
theorem C09_enum_container (es : List GoVal) (v : GoVal)
    (hv : (∃ b xs, v = .slice b xs) ∨ ∃ b kvs, v = .map b kvs) :
    ((∃ e ∈ es, SameContainer e v) → ((denote ext ρ (.enum es)).val σ v).1 = .abort .panic) ∧
    ((¬ ∃ e ∈ es, SameContainer e v) → ((denote ext ρ (.enum es)).val σ v).1 = .err .notInEnum) := by
  simp only [denote, pureV]
  induction es with
  | nil => simp [enumCheck]
  | cons e es ih =>
    simp only [List.mem_cons, exists_eq_or_imp, not_or]
    have hp : SameContainer e v → enumCheck (e :: es) v = .abort .panic := by
      intro h; cases h <;> rfl
    have hn : ¬ SameContainer e v → enumCheck (e :: es) v = enumCheck es v := by
      intro h
      have : goEq e v = .ok false := by
        rcases hv with ⟨b, xs, rfl⟩ | ⟨b, kvs, rfl⟩ <;> cases e <;>
          first | rfl | exact absurd (SameContainer.slice ..) h | exact absurd (SameContainer.map ..) h
      simp [enumCheck, this]
    by_cases h : SameContainer e v
    · exact ⟨fun _ => hp h, fun h' => absurd h h'.1⟩
    · rw [hn h]
      exact ⟨fun h' => ih.1 (h'.resolve_left h), fun h' => ih.2 h'.2⟩

example : (sem0 (.enum [.str (b! "a"), .int .int 3, .slice false []])).AcceptsBy sched0 (.int .int 3) := rfl
/-- same number, other type -/
example : ¬ (sem0 (.enum [.str (b! "a"), .int .int 3])).AcceptsBy sched0 (.int .int64 3) := by
  unfold Sem.AcceptsBy; decide
example : ((sem0 (.enum [.str (b! "a"), .slice false []])).val sched0 (.slice false [.nil])).1 = .abort .panic := rfl

/-! ## C10 -/

/-- C10: a string constraint accepts exactly the strings (or non-nil pointers to strings) obeying each
configured rule. -/
theorem C10_string_exact (c : StrC) (v : GoVal) :
    (denote ext ρ (.string c)).AcceptsBy σ v ↔ ∃ s, Target v (.str s) ∧ StrOk ext c s := by
  unfold Sem.AcceptsBy
  simp only [denote, pureV, strCheck]
  have hi : ∀ s, (valueOf v).indirect = some (.str s) ↔ Target v (.str s) := fun s =>
    indirect_iff (by simp) (by simp) (by simp)
  constructor
  · intro h
    split at h
    · rename_i s hs
      exact ⟨s, (hi s).1 hs, (strCheckS_ok ext c s).1 h⟩
    · cases h
  · rintro ⟨s, h1, h2⟩
    rw [(hi s).2 h1]
    exact (strCheckS_ok ext c s).2 h2

/-- C10: it always returns, and never changes the value. -/
theorem C10_string_total (c : StrC) (v : GoVal) :
    ((denote ext ρ (.string c)).val σ v).1.Normal ∧ ((denote ext ρ (.string c)).val σ v).2 = v := by
  simp only [denote, pureV, strCheck, and_true]
  split
  · exact strCheckS_normal ext c _
  · exact Res.Normal_err _

/-- a constraint using every rule, and a string obeying all of them -/
example : (sem0 (.string (((((String'.MinLength 3).MaxLength 12).Format (b! "hostname")).Regexp (b! "ex")).Enum
    [.str (b! "example.com"), .str (b! "x")]))).AcceptsBy sched0 (.ptr (some (.str (b! "example.com")))) := by
  unfold Sem.AcceptsBy; decide
example : ((sem0 (.string (String'.MaxLength 3))).val sched0 (.str (b! "abcd"))).1 = .err (.tooLong 3) := rfl

/-! ## C11 (false; refuted, with what does hold) -/

/-- The Go string holding these characters. -/
def utf8 (cs : List Char) : GoStr := cs.flatMap String.utf8EncodeChar

/-- C11 as stated: the limits count characters. -/
def C11_statement : Prop :=
  ∀ (cs : List Char) (n : ℕ),
    (sem0 (.string (String'.MaxLength n))).AcceptsBy sched0 (.str (utf8 cs)) ↔ cs.length ≤ n

/-- C11 is false: a one-character string is rejected by `MaxLength(1)`. -/
theorem C11_refuted : ¬ C11_statement := by
  intro h
  have := (h ['é'] 1).2 (by simp)
  unfold Sem.AcceptsBy at this
  revert this
  decide

theorem utf8_length_ge (cs : List Char) : cs.length ≤ (utf8 cs).length := by
  induction cs with
  | nil => simp
  | cons c cs ih =>
    have : 1 ≤ (String.utf8EncodeChar c).length := by
      rw [String.length_utf8EncodeChar]; exact Char.utf8Size_pos c
    simp only [utf8, List.flatMap_cons, List.length_append, List.length_cons] at ih ⊢
    omega

/-- C11, what holds for all strings: the limits bound characters from one side only — whatever
`MaxLength(n)` accepts has at most `n` characters, and whatever has at least `n` characters passes `MinLength(n)`
(missing: the converses for multi-byte characters, which are false). -/
theorem C11_lengths_partial (c : StrC) (cs : List Char) (n : ℕ) :
    ((denote ext ρ (.string (c.MaxLength n))).AcceptsBy σ (.str (utf8 cs)) → cs.length ≤ n) ∧
    (n ≤ cs.length → (denote ext ρ (.string (String'.MinLength n))).AcceptsBy σ (.str (utf8 cs))) := by
  have hge := utf8_length_ge cs
  constructor
  · intro h
    obtain ⟨s, h1, h2⟩ := (C10_string_exact ext ρ σ _ _).1 h
    cases h1 with
    | self => have := h2.max (by simp [StrC.MaxLength]); simp [StrC.MaxLength] at this; omega
  · intro h
    rw [C10_string_exact]
    refine ⟨utf8 cs, .self _ (by simp) (by simp), ?_, ?_, ?_, ?_, ?_⟩
    · intro h'; simp [StrC.MinLength, String'] at h'
    · intro _; simp [StrC.MinLength]; omega
    · simp [StrC.MinLength, String', FormatOk]
    · simp [StrC.MinLength, String']
    · simp [StrC.MinLength, String']

/-- C11 restricted to ASCII holds in full. -/
theorem C11_ascii_partial (cs : List Char) (n : ℕ) (h : ∀ c ∈ cs, c.utf8Size = 1) :
    (denote ext ρ (.string (String'.MaxLength n))).AcceptsBy σ (.str (utf8 cs)) ↔ cs.length ≤ n := by
  have hlen : (utf8 cs).length = cs.length := by
    induction cs with
    | nil => rfl
    | cons c cs ih =>
      have h1 := h c (by simp)
      have h2 := ih (fun x hx => h x (by simp [hx]))
      simp only [utf8, List.flatMap_cons, List.length_append, List.length_cons, String.length_utf8EncodeChar, h1]
      simp only [utf8] at h2
      omega
  rw [C10_string_exact]
  constructor
  · rintro ⟨s, h1, h2⟩
    cases h1 with
    | self => have := h2.max (by simp [StrC.MaxLength]); simp [StrC.MaxLength] at this; omega
  · intro hn
    refine ⟨utf8 cs, .self _ (by simp) (by simp), ?_, ?_, ?_, ?_, ?_⟩
    · intro _; simp [StrC.MaxLength]; omega
    · intro _; simp [StrC.MaxLength, String']
    · simp [StrC.MaxLength, String', FormatOk]
    · simp [StrC.MaxLength, String']
    · simp [StrC.MaxLength, String']

example : (sem0 (.string (String'.MaxLength 3))).AcceptsBy sched0 (.str (utf8 ['a', 'b', 'c'])) := by
  unfold Sem.AcceptsBy; decide

/-! ## C12 -/

/-- C12: the hostname format accepts exactly the well-formed domain names. -/
theorem C12_hostname_exact (c : StrC) (s : GoStr) (hc : c = String'.Format (b! "hostname")) :
    (denote ext ρ (.string c)).AcceptsBy σ (.str s) ↔ HostOk s := by
  subst hc
  rw [C10_string_exact]
  constructor
  · rintro ⟨s', h1, h2⟩
    cases h1 with
    | self => exact h2.format.2.2.1 rfl
  · intro h
    refine ⟨s, .self _ (by simp) (by simp), ⟨by simp [StrC.Format, String'], by simp [StrC.Format, String'],
      ?_, by simp [StrC.Format, String'], by simp [StrC.Format, String']⟩⟩
    simp [FormatOk, StrC.Format, String', h]

/-- a well-formed name with three labels and a trailing dot -/
example : HostOk (b! "a-1.example.com.") := by
  rw [← isDomainName_iff]; decide
example : ¬ HostOk (b! "a-.com") := by
  rw [← isDomainName_iff]; decide
/-- digits only: no letter -/
example : ¬ HostOk (b! "127.0.0.1") := by
  rw [← isDomainName_iff]; decide

/-! ## C13 -/

/-- C13: what passes the ipv4 (ipv6) format consists of digits and dots (colons) and is accepted by the
address parser; conversely such strings pass. -/
theorem C13_ip_exact (s : GoStr) :
    ((denote ext ρ (.string (String'.Format (b! "ipv4")))).AcceptsBy σ (.str s) ↔
      (∀ c ∈ s, c = 46 ∨ (48 ≤ c ∧ c ≤ 57)) ∧ ext.ipOk s = true) ∧
    ((denote ext ρ (.string (String'.Format (b! "ipv6")))).AcceptsBy σ (.str s) ↔
      (∀ c ∈ s, c = 58 ∨ (48 ≤ c ∧ c ≤ 57)) ∧ ext.ipOk s = true) := by
  constructor <;> rw [C10_string_exact] <;> constructor
  · rintro ⟨s', h1, h2⟩
    cases h1 with
    | self => exact h2.format.2.2.2.1 rfl
  · intro h
    exact ⟨s, .self _ (by simp) (by simp), ⟨by simp [StrC.Format, String'], by simp [StrC.Format, String'],
      by simpa [FormatOk, StrC.Format, String'] using h, by simp [StrC.Format, String'],
      by simp [StrC.Format, String']⟩⟩
  · rintro ⟨s', h1, h2⟩
    cases h1 with
    | self => exact h2.format.2.2.2.2.1 rfl
  · intro h
    exact ⟨s, .self _ (by simp) (by simp), ⟨by simp [StrC.Format, String'], by simp [StrC.Format, String'],
      by simpa [FormatOk, StrC.Format, String'] using h, by simp [StrC.Format, String'],
      by simp [StrC.Format, String']⟩⟩

example : (sem0 (.string (String'.Format (b! "ipv4")))).AcceptsBy sched0 (.str (b! "127.0.0.1")) := by
  unfold Sem.AcceptsBy; decide

/-! ## C14 (false) -/

/-- C14 as stated: everything the address parser accepts that contains a colon passes the ipv6 format. -/
def C14_statement : Prop :=
  ∀ (ext : Ext) (s : GoStr), 58 ∈ s → ext.ipOk s = true →
    (denote ext (fun _ => unresolved) (.string (String'.Format (b! "ipv6")))).AcceptsBy sched0 (.str s)

/-- C14 is false: `fe80::1` is rejected before the address parser is asked. -/
theorem C14_refuted : ¬ C14_statement := by
  intro h
  have := h { demoExt with ipOk := fun s => s == b! "fe80::1" } (b! "fe80::1") (by decide) (by decide)
  unfold Sem.AcceptsBy at this
  revert this
  decide

/-- C14, exact loss: no address containing a hexadecimal letter (or a dotted quad) is ever accepted, and every
other one is (missing: addresses with a byte outside digits and colons). -/
theorem C14_ipv6_partial (s : GoStr) (hip : ext.ipOk s = true) :
    (denote ext ρ (.string (String'.Format (b! "ipv6")))).AcceptsBy σ (.str s) ↔
      ¬ ∃ c ∈ s, c ≠ 58 ∧ (c < 48 ∨ 57 < c) := by
  rw [(C13_ip_exact ext ρ σ s).2]
  constructor
  · rintro ⟨h, -⟩ ⟨c, hc, h1, h2⟩
    rcases h c hc with h3 | ⟨h3, h4⟩
    · exact h1 h3
    · rcases h2 with h2 | h2
      · exact absurd h2 (UInt8.not_lt.2 h3)
      · exact absurd h2 (UInt8.not_lt.2 h4)
  · intro h
    refine ⟨fun c hc => ?_, hip⟩
    by_contra hcon
    apply h
    refine ⟨c, hc, fun h1 => hcon (Or.inl h1), ?_⟩
    by_contra h2
    rw [not_or] at h2
    exact hcon (Or.inr ⟨UInt8.not_lt.1 h2.1, UInt8.not_lt.1 h2.2⟩)

example : (sem0 (.string (String'.Format (b! "ipv6")))).AcceptsBy sched0 (.str (b! "::1")) := by
  unfold Sem.AcceptsBy; decide

/-! ## C15 -/

/-- C15: a format name outside the six known ones never affects the result. -/
theorem C15_unknown_format (c : StrC) (f : GoStr) (v : GoVal)
    (hf : f ∉ [b! "datetime", b! "email", b! "hostname", b! "ipv4", b! "ipv6", b! "uri"]) :
    (denote ext ρ (.string (c.Format f))).val σ v = (denote ext ρ (.string (c.Format []))).val σ v := by
  simp only [List.mem_cons, List.mem_nil_iff, or_false, not_or] at hf
  obtain ⟨h1, h2, h3, h4, h5, h6⟩ := hf
  simp only [denote, pureV, strCheck]
  have : ∀ s, strCheckS ext (c.Format f) s = strCheckS ext (c.Format []) s := by
    intro s
    simp only [strCheckS, StrC.Format, maxLenCheck, minLenCheck, regexpCheck]
    have e1 : formatCheck ext f s = .ok := by simp [formatCheck, h1, h2, h3, h4, h5, h6]
    have e2 : formatCheck ext [] s = .ok := by simp [formatCheck]
    rw [e1, e2]
    rfl
  split <;> simp [this]

/-- JSON Schema's own spelling is one of the ignored names. -/
example : (b! "date-time") ∉ [b! "datetime", b! "email", b! "hostname", b! "ipv4", b! "ipv6", b! "uri"] := by
  decide

/-! ## C16 -/

/-- C16: a number constraint accepts exactly the floats (or pointers to floats) violating no configured rule. -/
theorem C16_number_exact (c : NumC) (v : GoVal) :
    (denote ext ρ (.number c)).AcceptsBy σ v ↔ ∃ k f, Target v (.float k f) ∧ NumOk c f := by
  unfold Sem.AcceptsBy
  simp only [denote, pureV, numCheck]
  have hi : ∀ k f, (valueOf v).indirect = some (.float k f) ↔ Target v (.float k f) := fun k f =>
    indirect_iff (by simp) (by simp) (by simp)
  constructor
  · intro h
    split at h
    · rename_i k f hs
      exact ⟨k, f, (hi k f).1 hs, (numCheckF_ok c f).1 h⟩
    · cases h
  · rintro ⟨k, f, h1, h2⟩
    rw [(hi k f).2 h1]
    exact (numCheckF_ok c f).2 h2

/-- C16: it always returns and never changes the value. -/
theorem C16_number_total (c : NumC) (v : GoVal) :
    ((denote ext ρ (.number c)).val σ v).1.Normal ∧ ((denote ext ρ (.number c)).val σ v).2 = v := by
  simp only [denote, pureV, numCheck, and_true]
  split
  · exact numCheckF_normal c _
  · exact Res.Normal_err _

example : (sem0 (.number (((Number'.Minimum (F64.exactInt 2)).Maximum (F64.exactInt 10)).MultipleOf
    (F64.exactInt 3)))).AcceptsBy sched0 (fl 9) := by unfold Sem.AcceptsBy; decide +kernel
example : ¬ (sem0 (.number ((Number'.Minimum (F64.exactInt 2)).ExclusiveMinimum true))).AcceptsBy sched0 (fl 2) := by
  unfold Sem.AcceptsBy; decide +kernel
/-- integers are not floats -/
example : ¬ (sem0 (.number Number')).AcceptsBy sched0 (.int .int 2) := by unfold Sem.AcceptsBy; decide +kernel

/-! ## C17 (false) -/

/-- C17 as stated. -/
def C17_statement : Prop :=
  ∀ a b f : F64, (sem0 (.number ((Number'.Minimum a).Maximum b))).AcceptsBy sched0 (.float .f64 f) →
    F64.Le a f ∧ F64.Le f b

/-- C17 is false: NaN passes every interval. -/
theorem C17_refuted : ¬ C17_statement := by
  intro h
  obtain ⟨⟨x, y, h1, h2, -⟩, -⟩ := h (F64.exactInt 0) (F64.exactInt 1) .nan (by unfold Sem.AcceptsBy; decide +kernel)
  simp [F64.num] at h2

/-- C17 holds for every float that is not NaN and bounds that are not NaN (missing: NaN, for which it is
false). -/
theorem C17_interval_partial (a b f : F64) (ha : a ≠ .nan) (hb : b ≠ .nan) (hf : f ≠ .nan) :
    (denote ext ρ (.number ((Number'.Minimum a).Maximum b))).AcceptsBy σ (.float .f64 f) ↔
      F64.Le a f ∧ F64.Le f b := by
  have hnum : ∀ x : F64, x ≠ .nan → ∃ y, x.num = some y := by
    intro x hx
    rcases x with _ | n | _
    · exact absurd rfl hx
    · cases n <;> exact ⟨_, rfl⟩
    · exact ⟨_, rfl⟩
  obtain ⟨xa, hxa⟩ := hnum a ha
  obtain ⟨xb, hxb⟩ := hnum b hb
  obtain ⟨xf, hxf⟩ := hnum f hf
  have hle : ∀ {p q : F64} {x y}, p.num = some x → q.num = some y → (F64.Le p q ↔ x ≤ y) := by
    intro p q x y hp hq
    constructor
    · rintro ⟨x', y', h1, h2, h⟩
      rw [hp] at h1; rw [hq] at h2; cases h1; cases h2; exact h
    · intro h; exact ⟨x, y, hp, hq, h⟩
  have hlt : ∀ {p q : F64} {x y}, p.num = some x → q.num = some y → (F64.Lt p q ↔ x < y) := by
    intro p q x y hp hq
    constructor
    · rintro ⟨x', y', h1, h2, h⟩
      rw [hp] at h1; rw [hq] at h2; cases h1; cases h2; exact h
    · intro h; exact ⟨x, y, hp, hq, h⟩
  rw [C16_number_exact, hle hxa hxf, hle hxf hxb]
  constructor
  · rintro ⟨k, g, h1, h2⟩
    cases h1 with
    | self =>
      have m1 := h2.min a rfl
      have m2 := h2.max b rfl
      rw [hlt hxf hxa] at m1
      rw [hlt hxb hxf] at m2
      exact ⟨not_lt.1 m1, not_lt.1 m2⟩
  · rintro ⟨h1, h2⟩
    refine ⟨.f64, f, .self _ (by simp) (by simp), ?_, ?_, ?_, ?_, ?_, ?_⟩
    · intro m hm; cases hm; rw [hlt hxf hxa]; exact not_lt.2 h1
    · intro m _ h; simp [NumC.Minimum, NumC.Maximum, Number'] at h
    · intro m hm; cases hm; rw [hlt hxb hxf]; exact not_lt.2 h2
    · intro m _ h; simp [NumC.Minimum, NumC.Maximum, Number'] at h
    · intro m h; simp [NumC.Minimum, NumC.Maximum, Number'] at h
    · intro m h; simp [NumC.Minimum, NumC.Maximum, Number'] at h

/-- numbers meeting the hypotheses, inside and outside the interval -/
example : (sem0 (.number ((Number'.Minimum (F64.exactInt (-2))).Maximum (.inf false)))).AcceptsBy sched0 (fl 9) := by
  unfold Sem.AcceptsBy; decide +kernel

/-! ## C18 -/

/-- The float64 an integer constraint works with. -/
inductive IntView : GoVal → F64 → Prop where
  | int (k n) : IntView (.int k n) (F64.ofInt n)
  | uint (k n) : IntView (.uint k n) (F64.ofInt (n : ℕ))
  | float (k f) : f.Whole → IntView (.float k f) f

/-- C18: an integer constraint accepts exactly the integers of any signed or unsigned kind and the whole floats
(directly or behind one pointer) whose float64 value violates no rule. -/
theorem C18_integer_exact (c : NumC) (v : GoVal) :
    (denote ext ρ (.integer c)).AcceptsBy σ v ↔ ∃ x f, Target v x ∧ IntView x f ∧ NumOk c f := by
  unfold Sem.AcceptsBy
  simp only [denote, pureV, intCheck]
  constructor
  · intro h
    split at h
    · rename_i k n hs
      exact ⟨_, _, (indirect_iff (by simp) (by simp) (by simp)).1 hs, .int k n, (numCheckF_ok c _).1 h⟩
    · rename_i k n hs
      exact ⟨_, _, (indirect_iff (by simp) (by simp) (by simp)).1 hs, .uint k n, (numCheckF_ok c _).1 h⟩
    · rename_i k f hs
      have hw := F64.floor_eq_iff f
      cases he : F64.eq (F64.floor f) f
      · simp [he] at h
      · simp only [he, Bool.not_true, if_false, Bool.false_eq_true] at h
        exact ⟨_, _, (indirect_iff (by simp) (by simp) (by simp)).1 hs, .float k f (hw.1 he),
          (numCheckF_ok c _).1 h⟩
    · cases h
  · rintro ⟨x, f, h1, h2, h3⟩
    cases h2 with
    | int k n => rw [(indirect_iff (by simp) (by simp) (by simp)).2 h1]; exact (numCheckF_ok c _).2 h3
    | uint k n => rw [(indirect_iff (by simp) (by simp) (by simp)).2 h1]; exact (numCheckF_ok c _).2 h3
    | float k _ hw =>
      rw [(indirect_iff (by simp) (by simp) (by simp)).2 h1]
      simp only [(F64.floor_eq_iff f).2 hw, Bool.not_true, if_false, Bool.false_eq_true]
      exact (numCheckF_ok c _).2 h3

/-- C18: without further rules, exactly the integers and whole floats pass; so infinities pass and NaN fails. -/
theorem C18_integer_plain (v : GoVal) :
    (denote ext ρ (.integer Number')).AcceptsBy σ v ↔ ∃ x f, Target v x ∧ IntView x f := by
  rw [C18_integer_exact]
  have : ∀ f, NumOk Number' f := fun f =>
    ⟨by simp [Number'], by simp [Number'], by simp [Number'], by simp [Number'], by simp [Number'], by simp [Number']⟩
  constructor
  · rintro ⟨x, f, h1, h2, -⟩; exact ⟨x, f, h1, h2⟩
  · rintro ⟨x, f, h1, h2⟩; exact ⟨x, f, h1, h2, this f⟩

/-- C18: an integer of any kind gets the same verdict as its float64 conversion from every integer constraint, and
up to 2^53 that conversion is the float of exactly the same value. -/
theorem C18_kind_irrelevant (c : NumC) (n : ℤ) (k : IntKind) (fk : FloatKind) :
    ((denote ext ρ (.integer c)).val σ (.int k n)).1 = ((denote ext ρ (.integer c)).val σ (.float fk (F64.ofInt n))).1 ∧
    (∀ (m : ℕ) (uk : UintKind), n = m →
      ((denote ext ρ (.integer c)).val σ (.uint uk m)).1 = ((denote ext ρ (.integer c)).val σ (.int k n)).1) ∧
    (n.natAbs ≤ 2 ^ 53 → (F64.ofInt n).num = some (WithBot.some (WithTop.some (n * F64.unit)))) := by
  refine ⟨?_, ?_, ?_⟩
  · have := (F64.floor_eq_iff (F64.ofInt n)).2 (F64.whole_ofInt n)
    simp [denote, pureV, intCheck, valueOf, RV.indirect, this]
  · rintro m uk rfl; rfl
  · intro h; rw [F64.ofInt_exact h]; exact F64.exactInt_num n

example : (sem0 (.integer Number')).AcceptsBy sched0 (.float .f64 (.inf true)) := rfl
example : ¬ (sem0 (.integer Number')).AcceptsBy sched0 (.float .f64 .nan) := by unfold Sem.AcceptsBy; decide +kernel
/-- one half is not whole -/
example : ¬ (sem0 (.integer Number')).AcceptsBy sched0 (.float .f64 (.fin false (2 ^ 1073))) := by
  unfold Sem.AcceptsBy; decide +kernel

/-! ## C19 (false beyond 2^53) -/

/-- C19 as stated, for integer bounds. -/
def C19_statement : Prop :=
  ∀ a b n : ℤ, (sem0 (.integer ((Number'.Minimum (F64.ofInt a)).Maximum (F64.ofInt b)))).AcceptsBy sched0
    (.int .int64 n) ↔ a ≤ n ∧ n ≤ b

/-- C19 is false: 2^53+1 passes `Maximum(2^53)`. -/
theorem C19_refuted : ¬ C19_statement := by
  intro h
  have := (h 0 (2 ^ 53) (2 ^ 53 + 1)).1 (by unfold Sem.AcceptsBy; decide +kernel)
  norm_num at this

/-- Signed magnitude of `ofInt` is exact below 2^53 and stays at or beyond 2^53 otherwise. -/
theorem ofInt_num (n : ℤ) : ∃ z : ℤ, (F64.ofInt n).num = some (WithBot.some (WithTop.some (z * F64.unit))) ∧
    (n.natAbs ≤ 2 ^ 53 → z = n) ∧ (2 ^ 53 ≤ n → 2 ^ 53 ≤ z) ∧ (n ≤ -2 ^ 53 → z ≤ -2 ^ 53) := by
  by_cases h : n < 0
  · refine ⟨-(F64.round53 n.natAbs : ℤ), ?_, ?_, ?_, ?_⟩
    · unfold F64.ofInt
      rw [F64.num_fin]
      simp only [h, decide_true, F64.signed, if_true]
      push_cast
      rw [neg_mul]
      rfl
    · intro h'; rw [F64.round53_small h']; omega
    · intro h'; omega
    · intro h'
      have : 2 ^ 53 ≤ F64.round53 n.natAbs := F64.round53_large (by omega)
      zify at this
      omega
  · refine ⟨(F64.round53 n.natAbs : ℤ), ?_, ?_, ?_, ?_⟩
    · unfold F64.ofInt
      rw [F64.num_fin]
      simp only [h, decide_false, F64.signed, Bool.false_eq_true, if_false]
      push_cast
      rfl
    · intro h'; rw [F64.round53_small h']; omega
    · intro h'
      have : 2 ^ 53 ≤ F64.round53 n.natAbs := F64.round53_large (by omega)
      zify at this
      omega
    · intro h'; omega

/-- C19 holds for all integers, of any size, when the bounds are below 2^53 in absolute value; the bounds
need not be whole: `a`, `b` are the exact values in units of 2^-1074 (missing: larger bounds, where it is false). -/
theorem C19_integer_bounds_partial (na nb : Bool) (a b : ℕ) (n : ℤ) (k : IntKind)
    (ha : a < 2 ^ 53 * F64.unit) (hb : b < 2 ^ 53 * F64.unit) :
    (denote ext ρ (.integer ((Number'.Minimum (.fin na a)).Maximum (.fin nb b)))).AcceptsBy σ (.int k n) ↔
      F64.signed na a ≤ n * F64.unit ∧ n * F64.unit ≤ F64.signed nb b := by
  obtain ⟨z, hz, hsmall, hpos, hneg⟩ := ofInt_num n
  have hu : (0 : ℤ) < F64.unit := by exact_mod_cast F64.unit_pos
  have hfa : -(2 ^ 53 * (F64.unit : ℤ)) < F64.signed na a ∧ F64.signed na a < 2 ^ 53 * F64.unit := by
    zify at ha
    unfold F64.signed
    have : (0 : ℤ) ≤ a := by omega
    split <;> constructor <;> nlinarith
  have hfb : -(2 ^ 53 * (F64.unit : ℤ)) < F64.signed nb b ∧ F64.signed nb b < 2 ^ 53 * F64.unit := by
    zify at hb
    unfold F64.signed
    have : (0 : ℤ) ≤ b := by omega
    split <;> constructor <;> nlinarith
  have key : F64.signed na a ≤ z * F64.unit ∧ z * F64.unit ≤ F64.signed nb b ↔
      F64.signed na a ≤ n * F64.unit ∧ n * F64.unit ≤ F64.signed nb b := by
    by_cases hs : n.natAbs ≤ 2 ^ 53
    · rw [hsmall hs]
    · rcases lt_or_ge n 0 with h0 | h0
      · have h1 := hneg (by omega)
        have h2 : n ≤ -2 ^ 53 := by omega
        have e1 : z * F64.unit ≤ -2 ^ 53 * F64.unit := by nlinarith
        have e2 : n * F64.unit ≤ -2 ^ 53 * F64.unit := by nlinarith
        constructor <;> rintro ⟨h3, h4⟩ <;> exfalso <;> linarith
      · have h1 := hpos (by omega)
        have h2 : 2 ^ 53 ≤ n := by omega
        have e1 : 2 ^ 53 * F64.unit ≤ z * F64.unit := by nlinarith
        have e2 : 2 ^ 53 * F64.unit ≤ n * F64.unit := by nlinarith
        constructor <;> rintro ⟨h3, h4⟩ <;> exfalso <;> linarith
  rw [← key, C18_integer_exact]
  have hlt : ∀ {p q : F64} {x y}, p.num = some x → q.num = some y → (F64.Lt p q ↔ x < y) := by
    intro p q x y hp hq
    constructor
    · rintro ⟨x', y', h1, h2, h⟩
      rw [hp] at h1; rw [hq] at h2; cases h1; cases h2; exact h
    · intro h; exact ⟨x, y, hp, hq, h⟩
  constructor
  · rintro ⟨x, f, h1, h2, h3⟩
    cases h1 with
    | self =>
      cases h2 with
      | int =>
        have m1 := h3.min _ rfl
        have m2 := h3.max _ rfl
        rw [hlt hz (F64.num_fin na a)] at m1
        rw [hlt (F64.num_fin nb b) hz] at m2
        exact ⟨by exact_mod_cast not_lt.1 m1, by exact_mod_cast not_lt.1 m2⟩
  · rintro ⟨h1, h2⟩
    refine ⟨_, _, .self _ (by simp) (by simp), .int k n, ?_, ?_, ?_, ?_, ?_, ?_⟩
    · intro m hm; cases hm; rw [hlt hz (F64.num_fin na a)]; exact not_lt.2 (by exact_mod_cast h1)
    · intro m _ h; simp [NumC.Minimum, NumC.Maximum, Number'] at h
    · intro m hm; cases hm; rw [hlt (F64.num_fin nb b) hz]; exact not_lt.2 (by exact_mod_cast h2)
    · intro m _ h; simp [NumC.Minimum, NumC.Maximum, Number'] at h
    · intro m h; simp [NumC.Minimum, NumC.Maximum, Number'] at h
    · intro m h; simp [NumC.Minimum, NumC.Maximum, Number'] at h

/-- bounds -1.5 and 10, and a number far beyond 2^53 -/
example : 3 * 2 ^ 1073 < 2 ^ 53 * F64.unit ∧ ¬ (sem0 (.integer ((Number'.Minimum (.fin true (3 * 2 ^ 1073))).Maximum
    (F64.exactInt 10)))).AcceptsBy sched0 (.int .int64 (2 ^ 62 + 1)) := by
  unfold Sem.AcceptsBy; decide +kernel

/-! ## C20 -/

/-- C20: `MultipleOf(m)` with `m` not zero accepts a float iff it is an exact integer multiple of `m`; NaN and the
infinities always fail; `MultipleOf(0)` never rejects a float. -/
theorem C20_multipleOf_exact (m f : F64) :
    (¬ m.IsZero → ((denote ext ρ (.number (Number'.MultipleOf m))).AcceptsBy σ (.float .f64 f) ↔ f.MultOf m)) ∧
    (m.IsZero → (denote ext ρ (.number (Number'.MultipleOf m))).AcceptsBy σ (.float .f64 f)) := by
  constructor
  · intro hm
    rw [C16_number_exact]
    constructor
    · rintro ⟨k, g, h1, h2⟩
      cases h1 with
      | self => exact h2.mult m rfl hm
    · intro h
      refine ⟨.f64, f, .self _ (by simp) (by simp), ?_, ?_, ?_, ?_, ?_, ?_⟩ <;>
        intro m' hm' <;> simp [NumC.MultipleOf, Number'] at hm'
      subst hm'; exact fun _ => h
  · intro hm
    rw [C16_number_exact]
    refine ⟨.f64, f, .self _ (by simp) (by simp), ?_, ?_, ?_, ?_, ?_, ?_⟩ <;>
      intro m' hm' <;> simp [NumC.MultipleOf, Number'] at hm'
    subst hm'; exact fun h => absurd hm h

/-- 0.75 is a multiple of 0.25, 1 is not a multiple of 0.3 (as floats are exact dyadic numbers) -/
example : (sem0 (.number (Number'.MultipleOf (.fin false (2 ^ 1072))))).AcceptsBy sched0
    (.float .f64 (.fin false (3 * 2 ^ 1072))) := by unfold Sem.AcceptsBy; decide +kernel
example : ¬ (sem0 (.number (Number'.MultipleOf (.fin false 3)))).AcceptsBy sched0 (fl 1) := by
  unfold Sem.AcceptsBy; decide +kernel
example : ¬ (F64.exactInt 1).MultOf .nan := fun h => h

/-! ## C21 -/

/-- C21: only the float64 entries of a numeric enumeration matter: dropping all other entries changes no verdict,
for number and for integer constraints. -/
theorem C21_enum_float64_only (c : NumC) (es : List GoVal) (v : GoVal)
    (keep : GoVal → Bool) (hkeep : ∀ f, keep (.float .f64 f) = true) :
    ((denote ext ρ (.number (c.Enum (es.filter keep)))).AcceptsBy σ v ↔
      (denote ext ρ (.number (c.Enum es))).AcceptsBy σ v) ∧
    ((denote ext ρ (.integer (c.Enum (es.filter keep)))).AcceptsBy σ v ↔
      (denote ext ρ (.integer (c.Enum es))).AcceptsBy σ v) := by
  have key : ∀ f, NumOk (c.Enum (es.filter keep)) f ↔ NumOk (c.Enum es) f := by
    intro f
    have h : (∀ l, some (es.filter keep) = some l → ∃ g, GoVal.float .f64 g ∈ l ∧ F64.Eq g f) ↔
        (∀ l, some es = some l → ∃ g, GoVal.float .f64 g ∈ l ∧ F64.Eq g f) := by
      simp only [Option.some.injEq, forall_eq', List.mem_filter, hkeep, and_true]
    constructor
    · rintro ⟨h1, h2, h3, h4, h5, h6⟩; exact ⟨h1, h2, h3, h4, h5, h.1 h6⟩
    · rintro ⟨h1, h2, h3, h4, h5, h6⟩; exact ⟨h1, h2, h3, h4, h5, h.2 h6⟩
  rw [C16_number_exact, C16_number_exact, C18_integer_exact, C18_integer_exact]
  simp only [key, and_self]

/-- C21: with no float64 entry at all, nothing is accepted. -/
theorem C21_enum_no_floats (c : NumC) (es : List GoVal) (v : GoVal) (h : ∀ f, GoVal.float .f64 f ∉ es) :
    ¬ (denote ext ρ (.number (c.Enum es))).AcceptsBy σ v ∧ ¬ (denote ext ρ (.integer (c.Enum es))).AcceptsBy σ v := by
  rw [C16_number_exact, C18_integer_exact]
  constructor
  · rintro ⟨_, f, _, h2⟩
    obtain ⟨g, hg, -⟩ := h2.enums es rfl
    exact h g hg
  · rintro ⟨_, f, _, _, h2⟩
    obtain ⟨g, hg, -⟩ := h2.enums es rfl
    exact h g hg

/-- `Integer().Enum(1, 2, 3)` written with Go ints accepts nothing, with floats it works. -/
example : ¬ (sem0 (.integer (Number'.Enum [.int .int 1, .int .int 2]))).AcceptsBy sched0 (.int .int 1) := by
  unfold Sem.AcceptsBy; decide +kernel
example : (sem0 (.integer (Number'.Enum [.int .int 1, fl 2]))).AcceptsBy sched0 (.int .int 2) := by
  unfold Sem.AcceptsBy; decide +kernel

end Jsval
