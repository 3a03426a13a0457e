import Verif.Spec.Readable
import Verif.Props.Faults
import Verif.Lemmas.GenRun
/-!
# C111: what messages say
-/
namespace Jsval

variable {ext : Ext} {env : Env} {σ : Sched}

/-! ## How messages begin -/

/-- Which of the forms of messages; `required` and `prop` begin alike. -/
def Err.form : Err → Fin 45
  | .notNull => 0 | .notNoChild => 1 | .notFailed => 2 | .fewItems => 3 | .manyItems => 4 | .dupItem => 5 | .addlItems => 6 | .notBool => 7
  | .anyNone => 8 | .oneOfNone => 9 | .oneOfMany => 10 | .notInEnum => 11 | .notFloat => 12 | .belowMinExcl => 13 | .belowMin => 14
  | .aboveMaxExcl => 15 | .aboveMax => 16 | .notMultiple => 17 | .notIntegral => 18 | .notNumeric => 19 | .badDatetime => 20
  | .badHostname => 21 | .badIPv4 => 22 | .badIPv6 => 23 | .badURI => 24 | .mapKeys => 25 | .fewProps => 26 | .manyProps => 27
  | .addlNotAllowed => 28
  | .notSlice => 29 | .notString => 30 | .tooLong _ => 31 | .tooShort _ => 32 | .badEmail => 33 | .badRegexp _ _ => 34 | .noPropNames => 35
  | .required _ => 36 | .prop _ _ => 36 | .setDefault _ _ => 37 | .addlProp _ _ => 38 | .depMissing _ => 39 | .refNotFound _ => 40
  | .noField _ => 41 | .setPropKind => 42 | .badMaybe => 43 | .badTime => 44

/-- A text with its end marked. -/
def ended (t : GoStr) : List (Option UInt8) := t.map some ++ [none]

/-- The fixed messages, whole, … -/
def formFixed : List GoStr := [b! "value is not null", b! "'not' constraint does not have a child constraint", b! "'not' validation failed",
  b! "fewer items than minItems", b! "more items than maxItems", b! "duplicate element found", b! "additional elements found in array",
  b! "value is not a boolean", b! "could not validate against any of the constraints", b! "none of the constraints passed",
  b! "more than 1 of the constraints passed", b! "value is not in enumeration", b! "value is not a float",
  b! "numeric value is less than the minimum (exclusive minimum)", b! "numeric value is less than the minimum",
  b! "numeric value is greater than maximum (exclusive maximum)", b! "numeric value is greater than maximum",
  b! "numeric value is fails multipleOf validation", b! "value is not an int/uint", b! "value is not numeric", b! "invalid datetime",
  b! "invalid hostname", b! "invalid IPv4 address", b! "invalid IPv6 address", b! "invalid URI",
  b! "panic: can only handle maps with string keys", b! "fewer properties than minProperties", b! "more properties than maxProperties",
  b! "additional properties are not allowed"]

/-- … and the beginning of the others. -/
def formOpen : List GoStr := [b! "value must be a slice (was: ", b! "value is not a string (Kind: ", b! "string longer than maxLength ",
  b! "string shorter than minLength ", b! "invalid email address: ", b! "string '", b! "cannot get property names from this value (Kind: ",
  b! "object property '", b! "failed to set default value for property '", b! "object property for '", b! "required dependency '", b! "reference '",
  b! "setProp: could not find field '", b! "setProp: don't know what to do with '", b! "invalid Maybe value: (", b! "parsing time "]

/-- The beginnings of all forms. -/
def forms : List (List (Option UInt8)) := formFixed.map ended ++ formOpen.map (·.map some)

/-- No form begins like another one. -/
theorem forms_apart : ∀ i j : Fin 45, (forms[i.1]?.getD []).isPrefixOf (forms[j.1]?.getD []) = true → i = j := by decide +kernel

theorem fixed_begins {e : Err} {t : GoStr} (h : e.fixedText = some t) : forms[e.form.1]?.getD [] <+: ended t := by
  cases e <;> simp only [Err.fixedText, Option.some.injEq, reduceCtorEq] at h <;> (subst h; exact List.prefix_rfl)

theorem open_begins (i : Fin 45) (w t : GoStr) (h : forms[i.1]?.getD [] = w.map some) : forms[i.1]?.getD [] <+: ended (w ++ t) := by
  rw [h, ended, List.map_append, List.append_assoc]
  exact List.prefix_append ..

theorem Err.Says.begins {e : Err} {t : GoStr} (h : e.Says t) : forms[e.form.1]?.getD [] <+: ended t := by
  cases h with
  | fixed h => exact fixed_begins h
  | _ => try simp only [List.append_assoc]
         exact open_begins _ _ _ rfl

/-- The text of a message tells its form. -/
theorem form_of_text {e e' : Err} {t : GoStr} (h : e.Says t) (h' : e'.Says t) : e.form = e'.form := by
  rcases List.prefix_or_prefix_of_prefix h.begins h'.begins with h2 | h2
  · exact forms_apart _ _ (List.isPrefixOf_iff_prefix.2 h2)
  · exact (forms_apart _ _ (List.isPrefixOf_iff_prefix.2 h2)).symm

/-! ## Names between quotes -/

/-- What stands before the first quote. -/
theorem quote_split {p q s t : GoStr} (hp : Unquoted p) (hq : Unquoted q) (h : p ++ 0x27 :: s = q ++ 0x27 :: t) : p = q ∧ s = t := by
  induction p generalizing q with
  | nil =>
    cases q with
    | nil => simpa using h
    | cons c q => simp only [List.nil_append, List.cons_append, List.cons.injEq] at h; exact absurd h.1 fun e => hq (by simp [e])
  | cons c p ih =>
    cases q with
    | nil => simp only [List.nil_append, List.cons_append, List.cons.injEq] at h; exact absurd h.1.symm fun e => hp (by simp [e])
    | cons d q =>
      simp only [List.cons_append, List.cons.injEq] at h
      obtain ⟨e1, e2⟩ := ih (fun h => hp (List.mem_cons_of_mem _ h)) (fun h => hq (List.mem_cons_of_mem _ h)) h.2
      exact ⟨by rw [h.1, e1], e2⟩

theorem intDec_inj {i j : Int} (h : intDec i = intDec j) : i = j := by
  have hd : ∀ n : Nat, (natDec n).head? ≠ some 45 := fun n e => by
    have := natDec_digits n 45 (List.mem_of_mem_head? (by rw [e]; rfl))
    exact absurd this (by decide)
  unfold intDec at h
  split_ifs at h with h1 h2 h2
  · have := natDec_inj (List.cons.inj h).2; omega
  · exact absurd (by rw [← h]; rfl) (hd j.natAbs)
  · exact absurd (by rw [h]; rfl) (hd i.natAbs)
  · have := natDec_inj h; omega

/-- The error with this fixed text. -/
def ofForm (i : Fin 45) : Err :=
  ([.notNull, .notNoChild, .notFailed, .fewItems, .manyItems, .dupItem, .addlItems, .notBool, .anyNone, .oneOfNone, .oneOfMany, .notInEnum, .notFloat,
    .belowMinExcl, .belowMin, .aboveMaxExcl, .aboveMax, .notMultiple, .notIntegral, .notNumeric, .badDatetime, .badHostname, .badIPv4, .badIPv6,
    .badURI, .mapKeys, .fewProps, .manyProps, .addlNotAllowed] : List Err)[i.1]?.getD .notNull

theorem fixed_form {e : Err} {t : GoStr} (h : e.fixedText = some t) : e.form.1 < 29 ∧ ofForm e.form = e := by
  cases e <;> simp only [Err.fixedText, reduceCtorEq] at h <;> exact ⟨by decide, rfl⟩

/-! ## Reading a message back -/

theorem Err.Says.same {e e' : Err} {t : GoStr} (h : e.Says t) (h' : e'.Says t) (hc : e.Clear) (hc' : e'.Clear) : e = e' := by
  induction h generalizing e' with
  | @fixed e t h =>
    have hf := form_of_text (.fixed h) h'
    obtain ⟨h1, h2⟩ := fixed_form h
    cases h' with
    | fixed h' => rw [← h2, hf, (fixed_form h').2]
    | _ => exact absurd h1 (by rw [hf]; simp [Err.form])
  | notSlice typ =>
    have hf := form_of_text (.notSlice typ) h'
    cases e' <;> first | rfl | (simp [Err.form] at hf; done)
  | notString typ =>
    have hf := form_of_text (.notString typ) h'
    cases e' <;> first | rfl | (simp [Err.form] at hf; done)
  | badEmail typ =>
    have hf := form_of_text (.badEmail typ) h'
    cases e' <;> first | rfl | (simp [Err.form] at hf; done)
  | noPropNames typ =>
    have hf := form_of_text (.noPropNames typ) h'
    cases e' <;> first | rfl | (simp [Err.form] at hf; done)
  | setPropKind typ =>
    have hf := form_of_text (.setPropKind typ) h'
    cases e' <;> first | rfl | (simp [Err.form] at hf; done)
  | badMaybe typ =>
    have hf := form_of_text (.badMaybe typ) h'
    cases e' <;> first | rfl | (simp [Err.form] at hf; done)
  | badTime typ =>
    have hf := form_of_text (.badTime typ) h'
    cases e' <;> first | rfl | (simp [Err.form] at hf; done)
  | tooLong n =>
    have hf := form_of_text (.tooLong n) h'
    generalize hw : b! "string longer than maxLength " ++ intDec n = w at h'
    cases h' with
    | fixed h' => exact absurd (fixed_form h').1 (by rw [← hf]; simp [Err.form])
    | tooLong m => rw [intDec_inj (List.append_cancel_left hw)]
    | _ => simp [Err.form] at hf
  | tooShort n =>
    have hf := form_of_text (.tooShort n) h'
    generalize hw : b! "string shorter than minLength " ++ intDec n = w at h'
    cases h' with
    | fixed h' => exact absurd (fixed_form h').1 (by rw [← hf]; simp [Err.form])
    | tooShort m => rw [intDec_inj (List.append_cancel_left hw)]
    | _ => simp [Err.form] at hf
  | badRegexp s rx =>
    have hf := form_of_text (.badRegexp s rx) h'
    generalize hw : b! "string '" ++ s ++ b! "' does not match regular expression '" ++ rx ++ b! "'" = w at h'
    cases h' with
    | fixed h' => exact absurd (fixed_form h').1 (by rw [← hf]; simp [Err.form])
    | badRegexp s' rx' =>
      simp only [List.append_assoc] at hw
      obtain ⟨e1, e2⟩ := quote_split hc hc' (List.append_cancel_left hw)
      rw [e1, List.append_cancel_right (List.append_cancel_left (as := b! " does not match regular expression '") e2)]
    | _ => simp [Err.form] at hf
  | required p =>
    have hf := form_of_text (.required p) h'
    generalize hw : b! "object property '" ++ p ++ b! "' is required" = w at h'
    cases h' with
    | fixed h' => exact absurd (fixed_form h').1 (by rw [← hf]; simp [Err.form])
    | required q =>
      simp only [List.append_assoc] at hw
      rw [(quote_split hc hc' (List.append_cancel_left hw)).1]
    | prop q h' =>
      simp only [List.append_assoc] at hw
      have e2 := (quote_split hc hc'.1 (List.append_cancel_left hw)).2
      injection e2 with _ e2; injection e2 with e2 _; exact absurd e2 (by decide)
    | _ => simp [Err.form] at hf
  | @prop p e t h ih =>
    have hf := form_of_text (.prop p h) h'
    generalize hw : b! "object property '" ++ p ++ b! "' validation failed: " ++ t = w at h'
    cases h' with
    | fixed h' => exact absurd (fixed_form h').1 (by rw [← hf]; simp [Err.form])
    | required q =>
      simp only [List.append_assoc] at hw
      have e2 := (quote_split hc.1 hc' (List.append_cancel_left hw)).2
      injection e2 with _ e2; injection e2 with e2 _; exact absurd e2 (by decide)
    | prop q h' =>
      simp only [List.append_assoc] at hw
      obtain ⟨e1, e2⟩ := quote_split hc.1 hc'.1 (List.append_cancel_left hw)
      have e3 := List.append_cancel_left (as := b! " validation failed: ") e2
      subst e3
      rw [e1, ih h' hc.2 hc'.2]
    | _ => simp [Err.form] at hf
  | @addlProp p e t h ih =>
    have hf := form_of_text (.addlProp p h) h'
    generalize hw : b! "object property for '" ++ p ++ b! "' validation failed: " ++ t = w at h'
    cases h' with
    | fixed h' => exact absurd (fixed_form h').1 (by rw [← hf]; simp [Err.form])
    | addlProp q h' =>
      simp only [List.append_assoc] at hw
      obtain ⟨e1, e2⟩ := quote_split hc.1 hc'.1 (List.append_cancel_left hw)
      have e3 := List.append_cancel_left (as := b! " validation failed: ") e2
      subst e3
      rw [e1, ih h' hc.2 hc'.2]
    | _ => simp [Err.form] at hf
  | @setDefault p e t h ih =>
    have hf := form_of_text (.setDefault p h) h'
    generalize hw : b! "failed to set default value for property '" ++ p ++ b! "': " ++ t = w at h'
    cases h' with
    | fixed h' => exact absurd (fixed_form h').1 (by rw [← hf]; simp [Err.form])
    | setDefault q h' =>
      simp only [List.append_assoc] at hw
      obtain ⟨e1, e2⟩ := quote_split hc.1 hc'.1 (List.append_cancel_left hw)
      have e3 := List.append_cancel_left (as := b! ": ") e2
      subst e3
      rw [e1, ih h' hc.2 hc'.2]
    | _ => simp [Err.form] at hf
  | depMissing p =>
    have hf := form_of_text (.depMissing p) h'
    generalize hw : b! "required dependency '" ++ p ++ b! "' is mising" = w at h'
    cases h' with
    | fixed h' => exact absurd (fixed_form h').1 (by rw [← hf]; simp [Err.form])
    | depMissing q =>
      simp only [List.append_assoc] at hw
      rw [List.append_cancel_right (List.append_cancel_left hw)]
    | _ => simp [Err.form] at hf
  | refNotFound p =>
    have hf := form_of_text (.refNotFound p) h'
    generalize hw : b! "reference '" ++ p ++ b! "' not found" = w at h'
    cases h' with
    | fixed h' => exact absurd (fixed_form h').1 (by rw [← hf]; simp [Err.form])
    | refNotFound q =>
      simp only [List.append_assoc] at hw
      rw [List.append_cancel_right (List.append_cancel_left hw)]
    | _ => simp [Err.form] at hf
  | noField p =>
    have hf := form_of_text (.noField p) h'
    generalize hw : b! "setProp: could not find field '" ++ p ++ b! "'" = w at h'
    cases h' with
    | fixed h' => exact absurd (fixed_form h').1 (by rw [← hf]; simp [Err.form])
    | noField q =>
      simp only [List.append_assoc] at hw
      rw [List.append_cancel_right (List.append_cancel_left hw)]
    | _ => simp [Err.form] at hf

/-- C111: the text of an error tells the error — which rule was broken, at which property, with which bound, pattern or name — as long as
neither reading has a single quote in a name it goes past. -/
theorem C111_readable {e e' : Err} {t : GoStr} (h : e.Says t) (h' : e'.Says t) (hc : e.Clear) (hc' : e'.Clear) : e = e' := h.same h' hc hc'

/-- C111: every error has a text, so there is something to read. -/
theorem C111_some (e : Err) : ∃ t, e.Says t := by
  induction e with
  | prop p e ih => obtain ⟨t, h⟩ := ih; exact ⟨_, .prop p h⟩
  | addlProp p e ih => obtain ⟨t, h⟩ := ih; exact ⟨_, .addlProp p h⟩
  | setDefault p e ih => obtain ⟨t, h⟩ := ih; exact ⟨_, .setDefault p h⟩
  | notSlice => exact ⟨_, .notSlice []⟩
  | notString => exact ⟨_, .notString []⟩
  | tooLong n => exact ⟨_, .tooLong n⟩
  | tooShort n => exact ⟨_, .tooShort n⟩
  | badEmail => exact ⟨_, .badEmail []⟩
  | badRegexp s rx => exact ⟨_, .badRegexp s rx⟩
  | noPropNames => exact ⟨_, .noPropNames []⟩
  | required p => exact ⟨_, .required p⟩
  | depMissing p => exact ⟨_, .depMissing p⟩
  | refNotFound p => exact ⟨_, .refNotFound p⟩
  | noField p => exact ⟨_, .noField p⟩
  | setPropKind => exact ⟨_, .setPropKind []⟩
  | badMaybe => exact ⟨_, .badMaybe []⟩
  | badTime => exact ⟨_, .badTime []⟩
  | _ => exact ⟨_, .fixed rfl⟩

/-! ## The validator's name -/

theorem space_split {p q s t : GoStr} (hp : (0x20 : UInt8) ∉ p) (hq : (0x20 : UInt8) ∉ q) (h : p ++ 0x20 :: s = q ++ 0x20 :: t) : p = q ∧ s = t := by
  induction p generalizing q with
  | nil =>
    cases q with
    | nil => simpa using h
    | cons c q => simp only [List.nil_append, List.cons_append, List.cons.injEq] at h; exact absurd h.1 fun e => hq (by simp [e])
  | cons c p ih =>
    cases q with
    | nil => simp only [List.nil_append, List.cons_append, List.cons.injEq] at h; exact absurd h.1.symm fun e => hp (by simp [e])
    | cons d q =>
      simp only [List.cons_append, List.cons.injEq] at h
      obtain ⟨e1, e2⟩ := ih (fun h => hp (List.mem_cons_of_mem _ h)) (fun h => hq (List.mem_cons_of_mem _ h)) h.2
      exact ⟨by rw [h.1, e1], e2⟩

theorem WhoSays.parts {w : Who} {e : Err} {t : GoStr} (h : WhoSays w e t) (hw : w.ClearName) : ∃ n u, t = b! "validator " ++ (n ++ 0x20 :: (b! "failed: " ++ u)) ∧
    0x20 ∉ n ∧ e.Says u ∧ (w = .byName n ∨ w = .byPointer ∧ b! "0x" <+: n) := by
  cases h with
  | byName h => exact ⟨_, _, by simp only [List.append_assoc]; rfl, hw.1, h, .inl rfl⟩
  | @byPointer a _ t ha h =>
    refine ⟨b! "0x" ++ a, _, by simp only [List.append_assoc]; rfl, fun hm => ?_, h, .inr ⟨rfl, List.prefix_append ..⟩⟩
    rcases List.mem_append.1 hm with hm | hm
    · exact absurd hm (by decide)
    · exact absurd (ha _ hm) (by decide)

/-- C111: the text of what `Validate` returns also tells which validator it was, when its name has no spaces and does not look like an address. -/
theorem C111_validator {w w' : Who} {e e' : Err} {t : GoStr} (h : WhoSays w e t) (h' : WhoSays w' e' t) (hc : e.Clear) (hc' : e'.Clear)
    (hw : w.ClearName) (hw' : w'.ClearName) : w = w' ∧ e = e' := by
  obtain ⟨n, u, ht, hn, hu, hn'⟩ := h.parts hw
  obtain ⟨m, u', ht', hm, hu', hm'⟩ := h'.parts hw'
  obtain ⟨rfl, h2⟩ := space_split hn hm (List.append_cancel_left (ht.symm.trans ht'))
  have h3 := List.append_cancel_left h2
  subst h3
  refine ⟨?_, hu.same hu' hc hc'⟩
  rcases hn' with rfl | ⟨rfl, hp⟩ <;> rcases hm' with rfl | ⟨rfl, hp'⟩
  · rfl
  · exact absurd hp' hw.2
  · exact absurd hp hw'.2
  · rfl

/-! ## What is read is true -/

theorem clear_iff (e : Err) : e.Clear ↔ (∀ k ∈ e.names, Unquoted k) ∧ e.reason.Clear := by
  induction e with
  | prop p e ih => simp [Err.Clear, Err.names, Err.reason, ih, and_assoc]
  | addlProp p e ih => simp [Err.Clear, Err.names, Err.reason, ih, and_assoc]
  | setDefault p e ih => simp [Err.Clear, Err.names, Err.reason, ih, and_assoc]
  | _ => simp [Err.Clear, Err.names, Err.reason]

theorem StrFault.regexp_self {c : StrC} {s s' rx : GoStr} (h : StrFault ext c s (.badRegexp s' rx)) : s' = s := by cases h; rfl

theorem Fault.clear {c : Constraint} {v : GoVal} {e : Err} (h : Fault ext env c v e) (hv : ClearValue v) (hc : ClearRequired env c) : e.Clear := by
  obtain ⟨x, d, hat, hd, hf, hu⟩ := h.place
  obtain ⟨hk, hs⟩ := hv _ _ hat
  refine (clear_iff e).2 ⟨hk, ?_⟩
  generalize e.reason = r at hf hu
  cases r with
  | prop p r => cases d <;> simp [Constraint.Utters] at hu
  | addlProp p r => cases d <;> simp [Constraint.Utters] at hu
  | setDefault p r => cases d <;> simp [Constraint.Utters] at hu
  | required p => cases d <;> simp only [Constraint.Utters, reduceCtorEq, or_self] at hu; exact hc _ hd p hu
  | badRegexp s rx =>
    cases d <;> simp only [Constraint.Utters, reduceCtorEq, or_self] at hu
    cases hf with
    | string ht hf => cases hf; exact hs _ ht
  | _ => trivial

/-- C111: whoever reads the text of an error sees a true statement about what is wrong with the value (`Fault`, C103), provided there are no
single quotes in the value's property names and strings and in the names the validator requires. -/
theorem C111_true {c : Constraint} {v v' : GoVal} {e e' : Err} {t : GoStr} (henv : env.Every fun c => NoDefault c ∧ c.WfNode)
    (hc : c.Every fun c => NoDefault c ∧ c.WfNode) (hv : Tidy v) (h : Returns ext env c σ v (.err e) v') (ht : e.Says t)
    (hq : ClearValue v) (hr : ClearRequired env c) (ht' : e'.Says t) (he' : e'.Clear) : Fault ext env c v e' := by
  have hf := C103_cause henv hc hv h
  rw [← ht.same ht' (hf.clear hq hr) he']
  exact hf

/-! ### With single quotes -/

/-- Without the proviso a value can forge what is read: here the name of an additional property makes the message speak of a property of the
object that it does not have. -/
theorem C111_quoted : ∃ (c : Constraint) (v : GoVal) (e e' : Err) (t : GoStr), Returns demoExt env0 c sched0 v (.err e) v ∧ e.Says t ∧
    e'.Says t ∧ e'.Clear ∧ ¬ Fault demoExt env0 c v e' := by
  refine ⟨.object (Object'.AdditionalProperties (some (.string String'))),
    .map false [(b! "a' validation failed: object property 'b", fl 1)], .addlProp (b! "a' validation failed: object property 'b") .notString,
    .addlProp (b! "a") (.prop (b! "b") .notString), _, ⟨by simp, 3, by rfl⟩, .addlProp _ (.notString (b! "float64")), ?_, ?_, fun h => ?_⟩
  · exact Err.Says.addlProp (b! "a") (.prop (b! "b") (.notString (b! "float64")))
  · simp only [Err.Clear, Unquoted]; decide
  · obtain ⟨x, d, hat, -, -⟩ := h.place
    cases hat with
    | prop hobj hx _ =>
      cases hobj
      rcases hx with hx | hx <;> simp only [List.mem_cons, Prod.mk.injEq, List.not_mem_nil, or_false] at hx <;> exact absurd hx.1 (by decide)

/-! ### Examples -/

/-- the message of C103's example -/
example : WhoSays (.byName (b! "V0")) (.prop (b! "friend") (.prop (b! "tags") (.tooLong 3)))
    (b! "validator V0 failed: object property 'friend' validation failed: object property 'tags' validation failed: string longer than maxLength 3") :=
  .byName (.prop (b! "friend") (.prop (b! "tags") (.tooLong 3)))

example : (Err.prop (b! "friend") (.prop (b! "tags") (.tooLong 3))).Clear ∧ Who.ClearName (.byName (b! "V0")) := by
  simp only [Err.Clear, Unquoted, Who.ClearName]; decide

theorem ClearValue.of_map {n : Bool} {kvs : List (GoStr × GoVal)} (h : ∀ k x, (k, x) ∈ kvs → Unquoted k ∧ ClearValue x) : ClearValue (.map n kvs) := by
  intro ks y hat
  cases hat with
  | here => exact ⟨by simp, fun s ht => by cases ht⟩
  | prop hobj hx hat =>
    cases hobj
    obtain ⟨h1, h2⟩ := h _ _ (hx.elim id id)
    exact ⟨fun k hk => (List.mem_cons.1 hk).elim (fun e => e ▸ h1) fun hk => (h2 _ _ hat).1 k hk, (h2 _ _ hat).2⟩

theorem ClearValue.of_slice {n : Bool} {xs : List GoVal} (h : ∀ x ∈ xs, ClearValue x) : ClearValue (.slice n xs) := by
  intro ks y hat
  cases hat with
  | here => exact ⟨by simp, fun s ht => by cases ht⟩
  | item hx hat => exact h _ hx _ _ hat
  | prop hobj _ _ => cases hobj

theorem ClearValue.of_str {s : GoStr} (h : Unquoted s) : ClearValue (.str s) := by
  intro ks y hat
  cases hat with
  | here => exact ⟨by simp, fun s ht => by cases ht; exact h⟩
  | prop hobj _ _ => cases hobj

theorem ClearValue.of_float {k : FloatKind} {f : F64} : ClearValue (.float k f) := by
  intro ks y hat
  cases hat with
  | here => exact ⟨by simp, fun s ht => by cases ht⟩
  | prop hobj _ _ => cases hobj

/-- the value of C103's example -/
example : ClearValue exBadFriend := by
  refine .of_map fun k x hx => ?_
  simp only [List.mem_cons, Prod.mk.injEq, List.not_mem_nil, or_false] at hx
  rcases hx with ⟨rfl, rfl⟩ | ⟨rfl, rfl⟩
  · exact ⟨by unfold Unquoted; decide, .of_float⟩
  · refine ⟨by unfold Unquoted; decide, .of_map fun k x hx => ?_⟩
    simp only [List.mem_cons, Prod.mk.injEq, List.not_mem_nil, or_false] at hx
    rcases hx with ⟨rfl, rfl⟩ | ⟨rfl, rfl⟩
    · exact ⟨by unfold Unquoted; decide, .of_str (by unfold Unquoted; decide)⟩
    · refine ⟨by unfold Unquoted; decide, .of_slice fun x hx => ?_⟩
      simp only [List.mem_cons, List.not_mem_nil, or_false] at hx
      rcases hx with rfl | rfl <;> exact .of_str (by unfold Unquoted; decide)

theorem ReachedFrom.every {P : Constraint → Prop} {c d : Constraint} (henv : env.Every P) (h : ReachedFrom env c d) (hc : c.Every P) : d.Every P := by
  induction h with
  | refl => exact hc
  | child h1 _ ih => exact ih (hc.child h1)
  | ref h1 _ ih => exact ih (henv _ _ _ h1)

/-- A validator whose objects require clear names, and so do those it refers to. -/
theorem ClearRequired.of_every {c : Constraint} (henv : env.Every fun c => ∀ o, c = .object o → ∀ p ∈ o.required, Unquoted p)
    (hc : c.Every fun c => ∀ o, c = .object o → ∀ p ∈ o.required, Unquoted p) : ClearRequired env c :=
  fun _ h => (h.every henv hc).self _ rfl

/-- its validator -/
example : ClearRequired exMemberEnv exMember := by
  have hc : exMember.Every fun c => ∀ o, c = .object o → ∀ p ∈ o.required, Unquoted p := by
    refine .intro ?_ fun d hd => ?_
    · intro o ho p hp
      cases ho
      rw [show ObjC.required _ = [b! "id"] from rfl] at hp
      rw [List.mem_singleton.1 hp]; unfold Unquoted; decide
    · rw [show exMember.kids = [.array (Array'.Items (Constraint.string (String'.MaxLength 3))), .ref 0 (b! "self"),
        .any [.integer Number', .string (String'.MinLength 2)]] from rfl] at hd
      simp only [List.mem_cons, List.not_mem_nil, or_false] at hd
      rcases hd with rfl | rfl | rfl
      · refine .intro (fun o ho => by cases ho) fun d hd => ?_
        rw [show Constraint.kids _ = [.string (String'.MaxLength 3), .empty] from rfl] at hd
        simp only [List.mem_cons, List.not_mem_nil, or_false] at hd
        rcases hd with rfl | rfl <;> exact .intro (fun o ho => by cases ho) (fun d hd => by cases hd)
      · exact .intro (fun o ho => by cases ho) (fun d hd => by cases hd)
      · refine .intro (fun o ho => by cases ho) fun d hd => ?_
        simp only [Constraint.kids, List.mem_cons, List.not_mem_nil, or_false] at hd
        rcases hd with rfl | rfl <;> exact .intro (fun o ho => by cases ho) (fun d hd => by cases hd)
  refine .of_every (fun m n c h => ?_) hc
  unfold exMemberEnv at h
  split at h
  · cases h; exact hc
  · cases h

end Jsval
