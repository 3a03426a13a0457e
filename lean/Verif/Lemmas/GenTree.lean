import Verif.Lemmas.GenBuild
/-!
# Generated text read back: strings, arrays, objects and whole trees
-/
namespace Jsval
open Go

variable {ρ : GoStr → Option Val}

theorem str_int_step {isMax : Bool} (c : StrC) (n : Int) :
    Step ρ ((if isMax then b! ".MaxLength(" else b! ".MinLength(") ++ intDec n ++ b! ")") (.con (.string c))
      (.con (.string (if isMax then c.MaxLength n else c.MinLength n))) := by
  cases isMax
  · exact Step.one (n := b! "MinLength") ⟨by decide, ⟨_, rfl⟩, fun _ _ => rfl⟩ (ArgText.int n) (by rw [str_method]; rfl)
  · exact Step.one (n := b! "MaxLength") ⟨by decide, ⟨_, rfl⟩, fun _ _ => rfl⟩ (ArgText.int n) (by rw [str_method]; rfl)

theorem genString_map_builds {isPrint} {P : GoVal → Prop} {g : GoVal → GoVal}
    (hP : ∀ v, P v → ∃ t x, genEnumVal isPrint v = .ok t ∧ ArgText ρ t x ∧ x.toAny = some (g v)) {c : StrC}
    (hformat : Plain c.format) (hregexp : ∀ r, c.regexp = some r → Plain r) (henums : ∀ l, c.enums = some l → l ≠ [] ∧ ∀ v ∈ l, P v)
    (hdflt : ∀ v, c.dflt = some v → ∃ s, v = .str s ∧ Plain s) :
    ∃ t, genString isPrint c = .ok t ∧ Builds ρ t (.con (.string { rebuildStr c with enums := c.enums.map (·.map g) })) := by
  have h1 : Chain ρ (if c.maxLength > -1 then b! ".MaxLength(" ++ intDec c.maxLength ++ b! ")" else [])
      (.con (.string String')) (.con (.string { String' with maxLength := (rebuildStr c).maxLength })) := by
    refine Chain.ofIf (fun hn => ?_) (fun hp => ?_)
    · simp [rebuildStr, if_neg hn, String']
    · simp only [rebuildStr, if_pos hp]
      exact str_int_step (isMax := true) String' c.maxLength
  have h2 : Chain ρ (if c.minLength > 0 then b! ".MinLength(" ++ intDec c.minLength ++ b! ")" else [])
      (.con (.string { String' with maxLength := (rebuildStr c).maxLength }))
      (.con (.string { maxLength := (rebuildStr c).maxLength, minLength := (rebuildStr c).minLength })) := by
    refine Chain.ofIf (fun hn => ?_) (fun hp => ?_)
    · simp [rebuildStr, if_neg hn, String']
    · simp only [rebuildStr, if_pos hp]
      exact str_int_step (isMax := false) _ c.minLength
  have h3 : Chain ρ (if c.format ≠ [] then b! ".Format(" ++ goQuote isPrint c.format ++ b! ")" else [])
      (.con (.string { maxLength := (rebuildStr c).maxLength, minLength := (rebuildStr c).minLength }))
      (.con (.string { maxLength := (rebuildStr c).maxLength, minLength := (rebuildStr c).minLength, format := c.format })) := by
    refine Chain.ofIf (fun hn => ?_) (fun hp => ?_)
    · simp only [ne_eq, not_not] at hn
      rw [hn]
    · exact Step.one (n := b! "Format") ⟨by decide, ⟨_, rfl⟩, fun _ _ => rfl⟩ (ArgText.quote hformat) (by rw [str_method]; rfl)
  have h4 : Chain ρ (optCall c.regexp (b! ".RegexpString(") (goQuote isPrint))
      (.con (.string { maxLength := (rebuildStr c).maxLength, minLength := (rebuildStr c).minLength, format := c.format }))
      (.con (.string { maxLength := (rebuildStr c).maxLength, minLength := (rebuildStr c).minLength, format := c.format, regexp := c.regexp })) := by
    cases hr : c.regexp with
    | none => exact Chain.nil _
    | some r =>
      refine Step.chain (Step.one (n := b! "RegexpString") ⟨by decide, ⟨_, rfl⟩, fun _ _ => rfl⟩ (ArgText.quote (hregexp r hr)) ?_)
      rw [str_method]; rfl
  have h5 : ∃ t, catG (match c.enums with
      | none => []
      | some l => [.ok (b! ".Enum(")] ++ genEnumList isPrint l ++ [.ok (b! ",)")]) = .ok t ∧ Chain ρ t
      (.con (.string { maxLength := (rebuildStr c).maxLength, minLength := (rebuildStr c).minLength, format := c.format, regexp := c.regexp }))
      (.con (.string { maxLength := (rebuildStr c).maxLength, minLength := (rebuildStr c).minLength, format := c.format, regexp := c.regexp, enums := c.enums.map (·.map g) })) := by
    cases he : c.enums with
    | none => exact ⟨[], rfl, Chain.nil _⟩
    | some l =>
      obtain ⟨hne, hl⟩ := henums l he
      obtain ⟨t, ht, hs⟩ := enum_step hP
        { maxLength := (rebuildStr c).maxLength, minLength := (rebuildStr c).minLength, format := c.format, regexp := c.regexp } hne hl
      exact ⟨t, ht, hs.chain⟩
  have h6 : ∃ t, catG (match c.dflt with
      | none => []
      | some (.str s) => [.ok (b! ".Default(" ++ goQuote isPrint s ++ b! ")")]
      | some _ => [.error .err]) = .ok t ∧ Chain ρ t
      (.con (.string { maxLength := (rebuildStr c).maxLength, minLength := (rebuildStr c).minLength, format := c.format, regexp := c.regexp, enums := c.enums.map (·.map g) }))
      (.con (.string { rebuildStr c with enums := c.enums.map (·.map g) })) := by
    cases hd : c.dflt with
    | none =>
      refine ⟨[], rfl, ?_⟩
      have : { rebuildStr c with enums := c.enums.map (·.map g) } = ({ maxLength := (rebuildStr c).maxLength, minLength := (rebuildStr c).minLength, format := c.format, regexp := c.regexp, enums := c.enums.map (·.map g) } : StrC) := by
        simp [rebuildStr, hd]
      rw [← this]
      exact Chain.nil _
    | some v =>
      obtain ⟨s, rfl, hs⟩ := hdflt v hd
      refine ⟨_, catG_one _, Step.chain (Step.one (n := b! "Default") ⟨by decide, ⟨_, rfl⟩, fun _ _ => rfl⟩ (ArgText.quote hs) ?_)⟩
      rw [str_method]
      have : { rebuildStr c with enums := c.enums.map (·.map g) } = ({ dflt := some (.str s), maxLength := (rebuildStr c).maxLength, minLength := (rebuildStr c).minLength, format := c.format, regexp := c.regexp, enums := c.enums.map (·.map g) } : StrC) := by
        simp [rebuildStr, hd]
      rw [this]
      rfl
  obtain ⟨t5, e5, c5⟩ := h5
  obtain ⟨t6, e6, c6⟩ := h6
  refine ⟨_, ?_, builds_string.chain ((h1.append (h2.append (h3.append h4))).append (c5.append c6))⟩
  unfold genString
  rw [List.append_assoc]
  refine (catG_append (catG_cons _ (catG_cons _ (catG_cons _ (catG_cons _ (catG_one _))))) (catG_append e5 e6)).trans ?_
  simp only [List.append_assoc]

theorem genString_builds {isPrint} {c : StrC} (h : c.Gen) :
    ∃ t, genString isPrint c = .ok t ∧ Builds ρ t (.con (.string (rebuildStr c))) := by
  have := genString_map_builds (ρ := ρ) (isPrint := isPrint) (P := EnumLit) (g := id) (fun v h => enumVal_arg h) h.format h.regexp h.enums h.dflt
  simpa [rebuildStr] using this

theorem genBoolean_builds {d : Option GoVal} (h : ∀ v, d = some v → ∃ b, v = .bool b) :
    ∃ t, genBoolean d = .ok t ∧ Builds ρ t (.con (.boolean d)) := by
  cases d with
  | none => exact ⟨_, rfl, builds_boolean⟩
  | some v =>
    obtain ⟨b, rfl⟩ := h v rfl
    refine ⟨_, rfl, ?_⟩
    have hs : Step ρ (b! ".Default(" ++ boolDec b ++ b! ")") (.con (.boolean none)) (.con (.boolean (some (.bool b)))) :=
      Step.one (n := b! "Default") ⟨by decide, ⟨_, rfl⟩, fun _ _ => rfl⟩ (ArgText.bool b) rfl
    exact builds_boolean.step hs

/-! ## Arrays -/

theorem arr_method (c : ArrC Constraint) (n : GoStr) (args : List Val) :
    method (.con (.array c)) n args = (arrMethod c n args).map (fun c => .con (.array c)) := by
  simp [Go.method, conMethod, Option.map_map, Function.comp_def]

/-- Elements of a composite literal, each followed by a comma. -/
def ElemsComma (ks : List Tok) (es : List Expr) : Prop :=
  ∀ d s lhs t acc stk, parseRun ⟨d, s, .want lhs (.lit true t acc :: stk)⟩ ks =
    ⟨d, s, .want lhs (.lit true t (acc ++ es) :: stk)⟩

theorem ElemsComma.cons {ks e ks' es} (h : Operand ks e) (h' : ElemsComma ks' es) :
    ElemsComma (ks ++ .op 0x2C :: ks') (e :: es) := by
  intro d s lhs t acc stk
  rw [parseRun_append, h, parseRun_cons]
  have : parseStep ⟨d, s, .have lhs e (.lit true t acc :: stk)⟩ (.op 0x2C) = ⟨d, s, .want lhs (.lit true t (acc ++ [e]) :: stk)⟩ := rfl
  rw [this, h']
  simp

theorem lexN_commaNl : LexN (b! ",\n") [.op 0x2C] false := fun _ _ => rfl

/-- The elements of the positional list. -/
theorem genPositional_elems {isPrint cm} {f : Constraint → Constraint} : ∀ (cs : List Constraint) (i : Nat) (σ : Sched),
    (∀ c ∈ cs, ∀ σ, ∃ t, gen isPrint cm c σ = .ok t ∧ Builds ρ t (.con (f c))) →
    ∃ t ks es, catG (genPositional i (cs.map (gen isPrint cm)) σ) = .ok t ∧ (0x25 : UInt8) ∉ t ∧
      (∀ out, lexRun ⟨out, .normal, false⟩ t = ⟨ks.reverse ++ out, .normal, false⟩) ∧ ElemsComma ks es ∧
      evalArgs ρ es = some (cs.map (fun c => .con (f c)))
  | [], i, σ, _ => ⟨[], [], [], rfl, by simp, fun _ => rfl, fun _ _ _ _ _ _ => by simp [parseRun_nil], rfl⟩
  | c :: cs, i, σ, h => by
    obtain ⟨t, ht, hb⟩ := h c (List.mem_cons_self ..) (σ.sub i)
    obtain ⟨u, ks, es, h1, h2, h3, h4, h5⟩ := genPositional_elems cs (i + 1) σ (fun d hd => h d (List.mem_cons_of_mem _ hd))
    obtain ⟨b1, _, _, ks', e, bl, bo, _, be⟩ := hb
    refine ⟨(t ++ b! ",\n") ++ u, ks' ++ .op 0x2C :: ks, e :: es, ?_, ?_, ?_, ElemsComma.cons bo h4, ?_⟩
    · rw [List.map_cons, genPositional, ht]
      exact catG_cons _ h1
    · simp only [List.mem_append, not_or]
      exact ⟨⟨b1, by decide⟩, h2⟩
    · intro out
      rw [lexRun_append, bl.thenN (by decide) lexN_commaNl, h3]
      simp
    · rw [evalArgs, be, h5]
      rfl

/-- The call of `PositionalItems`. -/
theorem positional_step {t : GoStr} {ks es} {cs : List Constraint} {a : ArrC Constraint} (h2 : (0x25 : UInt8) ∉ t)
    (h3 : ∀ out, lexRun ⟨out, .normal, false⟩ t = ⟨ks.reverse ++ out, .normal, false⟩) (h4 : ElemsComma ks es)
    (h5 : evalArgs ρ es = some (cs.map .con)) :
    Step ρ (b! ".\nPositionalItems([]jsval.Constraint{\n" ++ t ++ b! "})") (.con (.array a)) (.con (.array (a.PositionalItems cs))) := by
  have hl : LexN (b! ".\nPositionalItems([]jsval.Constraint{\n")
      [.op 0x2E, .ident (b! "PositionalItems"), .op 0x28, .op 0x5B, .op 0x5D, .ident (b! "jsval"), .op 0x2E,
        .ident (b! "Constraint"), .op 0x7B] false := fun _ _ => rfl
  have hr : LexN (b! "})") [.op 0x7D, .op 0x29] true := fun _ _ => rfl
  refine ⟨?_, ⟨b! ".\nPositionalItems([]jsval.Constraint{\n" ++ t ++ b! "}", by simp⟩,
    [.op 0x2E, .ident (b! "PositionalItems"), .op 0x28, .op 0x5B, .op 0x5D, .ident (b! "jsval"), .op 0x2E,
        .ident (b! "Constraint"), .op 0x7B] ++ (ks ++ [.op 0x7D, .op 0x29]), b! "PositionalItems",
    [.lit true (.sel (.ident (b! "jsval")) (b! "Constraint")) es], [.cons cs], _, by rw [List.append_assoc]; rfl, ?_, ?_, ?_, ?_⟩
  · simp only [List.mem_append, not_or]
    exact ⟨⟨by decide, h2⟩, by decide⟩
  · intro out semi
    rw [List.append_assoc, lexRun_append, hl, lexRun_append, h3, hr]
    simp
  · intro d s lhs e stk
    rw [parseRun_append]
    have : parseRun ⟨d, s, .have lhs e stk⟩ [.op 0x2E, .ident (b! "PositionalItems"), .op 0x28, .op 0x5B, .op 0x5D,
        .ident (b! "jsval"), .op 0x2E, .ident (b! "Constraint"), .op 0x7B] =
      ⟨d, s, .want lhs (.lit true (.sel (.ident (b! "jsval")) (b! "Constraint")) [] :: .call (.sel e (b! "PositionalItems")) [] :: stk)⟩ := rfl
    rw [this, parseRun_append, h4]
    rfl
  · have ha : allSome ((cs.map Val.con).map Val.toCon) = some cs := allSome_map Val.toCon Val.con (fun _ => rfl) cs
    have he : eval ρ (.lit true (.sel (.ident (b! "jsval")) (b! "Constraint")) es) = some (.cons cs) := by
      rw [eval, h5]
      show Option.map _ _ = _
      rw [ha]
      rfl
    rw [evalArgs, he]
    rfl
  · rw [arr_method]; rfl

theorem genArray_builds {isPrint cm} {f : Constraint → Constraint} {a : ArrC Constraint} (σ : Sched)
    (h : ∀ c, a.Child c → ∀ σ, ∃ t, gen isPrint cm c σ = .ok t ∧ Builds ρ t (.con (f c))) :
    ∃ t, genArray (genArr isPrint cm a) σ = .ok t ∧ Builds ρ t (.con (.array (rebuildArr (a.map f)))) := by
  obtain ⟨it, po, ad, mn, mx, un⟩ := a
  -- items
  have h1 : ∃ t, catG (genSub (b! "Items") (it.map (gen isPrint cm)) (σ.sub 0)) = .ok t ∧ Chain ρ t (.con (.array Array'))
      (.con (.array { Array' with items := it.map f })) := by
    cases it with
    | none => exact ⟨[], rfl, Chain.nil _⟩
    | some c =>
      obtain ⟨t, ht, hb⟩ := h c (.items rfl) (σ.sub 0)
      refine ⟨b! ".\nItems(\n" ++ (t ++ b! ",\n)"), ?_, ?_⟩
      · simp only [Option.map_some, genSub, ht]
        exact catG_cons _ (catG_cons _ (catG_one _))
      · exact Step.chain (Step.sub (n := b! "Items") ⟨by decide, ⟨_, rfl⟩, fun _ _ => rfl⟩ hb (by rw [arr_method]; rfl))
  have h2 : ∃ t, catG (genSub (b! "AdditionalItems") (ad.map (gen isPrint cm)) (σ.sub 1)) = .ok t ∧ Chain ρ t
      (.con (.array { Array' with items := it.map f }))
      (.con (.array { Array' with items := it.map f, additional := some ((ad.map f).getD .empty) })) := by
    cases ad with
    | none => exact ⟨[], rfl, Chain.nil _⟩
    | some c =>
      obtain ⟨t, ht, hb⟩ := h c (.additional rfl) (σ.sub 1)
      refine ⟨b! ".\nAdditionalItems(\n" ++ (t ++ b! ",\n)"), ?_, ?_⟩
      · simp only [Option.map_some, genSub, ht]
        exact catG_cons _ (catG_cons _ (catG_one _))
      · exact Step.chain (Step.sub (n := b! "AdditionalItems") ⟨by decide, ⟨_, rfl⟩, fun _ _ => rfl⟩ hb (by rw [arr_method]; rfl))
  have h3 : ∃ t, catG (if (po.map (gen isPrint cm)).length > 0 then
      [.ok (b! ".\nPositionalItems([]jsval.Constraint{\n")] ++ genPositional 0 (po.map (gen isPrint cm)) (σ.sub 2) ++ [.ok (b! "})")]
    else []) = .ok t ∧ Chain ρ t
      (.con (.array { Array' with items := it.map f, additional := some ((ad.map f).getD .empty) }))
      (.con (.array { Array' with items := it.map f, additional := some ((ad.map f).getD .empty), positional := po.map f })) := by
    by_cases hp : (po.map (gen isPrint cm)).length > 0
    · rw [if_pos hp]
      obtain ⟨t, ks, es, e1, e2, e3, e4, e5⟩ := genPositional_elems (ρ := ρ) (f := f) po 0 (σ.sub 2) (fun c hc => h c (.positional hc))
      refine ⟨_, catG_append (catG_append (catG_one _) e1) (catG_one _), Step.chain ?_⟩
      refine positional_step (cs := po.map f) e2 e3 e4 ?_
      rw [e5, List.map_map]
      rfl
    · rw [if_neg hp]
      have : po = [] := by simpa using hp
      subst this
      exact ⟨[], rfl, Chain.nil _⟩
  have h4 : ∀ (a0 : ArrC Constraint), a0.minItems = -1 → Chain ρ (if mn > -1 then b! ".\nMinItems(" ++ intDec mn ++ b! ")" else [])
      (.con (.array a0)) (.con (.array { a0 with minItems := if mn > -1 then mn else -1 })) := by
    intro a0 h0
    refine Chain.ofIf (fun hn => ?_) (fun hp => ?_)
    · rw [if_neg hn, ← h0]
    · rw [if_pos hp]
      exact Step.one (n := b! "MinItems") ⟨by decide, ⟨_, rfl⟩, fun _ _ => rfl⟩ (ArgText.int mn) (by rw [arr_method]; rfl)
  have h5 : ∀ (a0 : ArrC Constraint), a0.maxItems = -1 → Chain ρ (if mx > -1 then b! ".\nMaxItems(" ++ intDec mx ++ b! ")" else [])
      (.con (.array a0)) (.con (.array { a0 with maxItems := if mx > -1 then mx else -1 })) := by
    intro a0 h0
    refine Chain.ofIf (fun hn => ?_) (fun hp => ?_)
    · rw [if_neg hn, ← h0]
    · rw [if_pos hp]
      exact Step.one (n := b! "MaxItems") ⟨by decide, ⟨_, rfl⟩, fun _ _ => rfl⟩ (ArgText.int mx) (by rw [arr_method]; rfl)
  have h6 : ∀ (a0 : ArrC Constraint), a0.unique = false → Chain ρ (optText un (b! ".\nUniqueItems(true)"))
      (.con (.array a0)) (.con (.array { a0 with unique := un })) := by
    intro a0 h0
    refine Chain.ofBool (fun hn => ?_) (fun hp => ?_)
    · rw [hn, ← h0]
    · rw [hp]
      exact Step.one (t := b! ".\nUniqueItems(") (w := b! "true") (n := b! "UniqueItems")
        ⟨by decide, ⟨_, rfl⟩, fun _ _ => rfl⟩ (ArgText.bool true) (by rw [arr_method]; rfl)
  obtain ⟨t1, e1, c1⟩ := h1
  obtain ⟨t2, e2, c2⟩ := h2
  obtain ⟨t3, e3, c3⟩ := h3
  have c4 := h4 ⟨it.map f, po.map f, some ((ad.map f).getD .empty), -1, -1, false⟩ rfl
  have c5 := h5 ⟨it.map f, po.map f, some ((ad.map f).getD .empty), if mn > -1 then mn else -1, -1, false⟩ rfl
  have c6 := h6 ⟨it.map f, po.map f, some ((ad.map f).getD .empty), if mn > -1 then mn else -1, if mx > -1 then mx else -1, false⟩ rfl
  refine ⟨_, ?_, builds_array.chain (c1.append (c2.append (c3.append (c4.append (c5.append c6)))))⟩
  rw [genArr, genArray, genOpt_eq, genOpt_eq, genList_eq]
  refine (catG_append (catG_append (catG_append (catG_append (catG_one _) e1) e2) e3) (catG_cons _ (catG_cons _ (catG_one _)))).trans ?_
  simp only [List.append_assoc]

end Jsval
