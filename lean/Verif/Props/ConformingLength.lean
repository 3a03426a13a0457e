import Verif.Props.Conforming
/-!
# Lengths of strings (C63)

The package counts bytes, the specification characters (C11). `C63_exact` on "not empty", where that makes no difference; and on every
other limit there is a text for which it does.
-/
namespace Jsval

/-- Documents whose texts do not begin inside a character. -/
abbrev utf8Doc : DocClass := ⟨False, False, True⟩

/-- `{"type": "string", "minLength": n}` -/
def exMinSchema (n : Nat) : Schema := .mk { type := [.string], minLength := some (n : Int) }

/-- `{"type": "string", "maxLength": n}` -/
def exMaxSchema (n : Nat) : Schema := .mk { type := [.string], maxLength := some (n : Int) }

def exMinBuilt (n : Nat) : Built := ⟨.string { String' with minLength := n }, []⟩

def exMaxBuilt (n : Nat) : Built := ⟨.string { String' with maxLength := n }, []⟩

theorem exMin_build (lib : SchemaLib) (m n fuel : Nat) (resolve : Resolver) (σ : Sched) :
    Build lib m resolve fuel σ (exMinSchema n) = .ok (exMinBuilt n) := by
  cases fuel <;> rfl

theorem exMax_build (lib : SchemaLib) (m n fuel : Nat) (resolve : Resolver) (σ : Sched) :
    Build lib m resolve fuel σ (exMaxSchema n) = .ok (exMaxBuilt n) := by
  cases fuel <;> rfl

theorem exMin_conforms (ext : Ext) (formats : List GoStr) : (exMinSchema 1).Conforms ext formats utf8Doc := by
  refine .node _ rfl ?_ (fun c hc => ?_)
  · constructor <;> simp [List.Nodup] <;> decide
  · cases hc with
    | _ h => simp at h

theorem exMax_conforms (ext : Ext) (formats : List GoStr) : (exMaxSchema 0).Conforms ext formats utf8Doc := by
  refine .node _ rfl ?_ (fun c hc => ?_)
  · constructor <;> simp [List.Nodup] <;> decide
  · cases hc with
    | _ h => simp at h

theorem exMin_noRefs {k : Nat} {n : GoStr} : ¬ (exMinSchema k).Mentions n := by
  intro h
  cases h with
  | here h => exact h rfl
  | child _ hc _ => cases hc with | _ h => simp at h

theorem exMin_grounded {k : Nat} : Grounded (fun _ => .fail) (exMinSchema k) := by
  refine ⟨fun n => ⟨_, fun k ⟨s1, h1, h2⟩ => ?_⟩⟩
  cases h1 with
  | root => cases h2 with
    | here h => exact absurd rfl h
    | _ _ h => simp at h
  | resolved _ h => cases h

/-- All hypotheses of `C63_exact` hold for `{"type": "string", "minLength": 1}`: not ASCII only. -/
theorem exMin_exact {ext : Ext} (R : GoStr → GoVal → Prop) {v : GoVal} (hv : Doc utf8Doc v) (τ : Sched) :
    (exMinSchema 1).Valid ext R v ↔ Returns ext ((exMinBuilt 1).env 7) (exMinBuilt 1).root τ v .ok v := by
  have hno : ∀ n, ¬ Reaches (fun _ => .fail) (exMinSchema 1) n := by
    intro n h
    induction h with
    | root h => exact exMin_noRefs h
    | step _ _ _ ih => exact ih
  exact ((C63_exact (lib := lib0) (m := 7) (σ := sched0) (bfuel := 10) (fun h => absurd h (hno _)) (exMin_build ..)
    (exMin_conforms _ _) (fun _ _ h => absurd h (hno _)) exMin_grounded).2
    R (fun n _ h => absurd h (hno n)) v hv τ).1

/-- A byte that is counted, and one that is not. -/
theorem byte_head {x : Nat} (h : x < 256) (hx : x < 128 ∨ 192 ≤ x) : (x.toUInt8 < 128 || 192 ≤ x.toUInt8) = true := by
  have h1 : x.toUInt8.toNat = x := by simp; omega
  simp only [Bool.or_eq_true, decide_eq_true_eq, UInt8.lt_iff_toNat_lt, UInt8.le_iff_toNat_le, h1]
  exact hx

theorem byte_tail {x : Nat} (hx : 128 ≤ x ∧ x < 192) : ¬ (x.toUInt8 < 128 || 192 ≤ x.toUInt8) = true := by
  have h1 : x.toUInt8.toNat = x := by simp; omega
  simp only [Bool.or_eq_true, decide_eq_true_eq, UInt8.lt_iff_toNat_lt, UInt8.le_iff_toNat_le, h1]
  change ¬ (x < 128 ∨ 192 ≤ x)
  omega

/-- The encoding of a character begins with a byte that is counted; the others are not. -/
theorem utf8_char (c : Char) : ∃ b l, String.utf8EncodeChar c = b :: l ∧ (b < 128 || 192 ≤ b) = true ∧
    ∀ x ∈ l, ¬ (x < 128 || 192 ≤ x) = true := by
  have hv : c.val.toNat < 0x110000 := by
    have := c.valid
    simp only [UInt32.isValidChar, Nat.isValidChar] at this
    omega
  unfold String.utf8EncodeChar
  simp only
  split
  · exact ⟨_, _, rfl, byte_head (by omega) (by omega), fun x hx => absurd hx (by simp)⟩
  · split
    · refine ⟨_, _, rfl, byte_head (by omega) (by omega), fun x hx => ?_⟩
      simp only [List.mem_cons, List.not_mem_nil, or_false] at hx
      subst hx; exact byte_tail (by omega)
    · split
      · refine ⟨_, _, rfl, byte_head (by omega) (by omega), fun x hx => ?_⟩
        simp only [List.mem_cons, List.not_mem_nil, or_false] at hx
        rcases hx with rfl | rfl <;> exact byte_tail (by omega)
      · refine ⟨_, _, rfl, byte_head (by omega) (by omega), fun x hx => ?_⟩
        simp only [List.mem_cons, List.not_mem_nil, or_false] at hx
        rcases hx with rfl | rfl | rfl <;> exact byte_tail (by omega)

/-- What the specification of C63 counts are characters; -/
theorem C63_characters (cs : List Char) : runeCount (utf8 cs) = cs.length := by
  induction cs with
  | nil => rfl
  | cons c cs ih =>
    obtain ⟨b, l, h1, h2, h3⟩ := utf8_char c
    unfold runeCount at ih ⊢
    simp only [utf8, List.flatMap_cons, h1] at ih ⊢
    rw [List.cons_append, List.countP_cons_of_pos (p := fun c => decide (c < 128) || decide (192 ≤ c)) h2, List.countP_append,
      List.countP_eq_zero.2 h3, ih]
    simp

/-- and a text of characters does not begin inside one. -/
theorem C63_whole (cs : List Char) : StartsWhole (utf8 cs) := by
  intro b hb
  cases cs with
  | nil => cases hb
  | cons c cs =>
    obtain ⟨b', l, h1, h2, h3⟩ := utf8_char c
    simp only [utf8, List.flatMap_cons, h1, List.cons_append, List.head?_cons, Option.some.injEq] at hb
    subst hb
    simpa using h2

/-- "aé€𝄞": ten bytes. -/
example : runeCount (utf8 ['a', 'é', '€', '𝄞']) = 4 ∧ (utf8 ['a', 'é', '€', '𝄞']).length = 10 := by
  decide

/-- "é" is such a document. -/
example : Doc utf8Doc (.str [0xc3, 0xa9]) :=
  .str _ (fun h => h.elim) (fun h => h.elim) fun _ c hc => by cases hc; decide

theorem runeCount_accent (k : Nat) : runeCount (0xc3 :: 0xa9 :: List.replicate k 97) = k + 1 := by
  have : ∀ k, runeCount (List.replicate k 97) = k := fun k =>
    (runeCount_ascii (fun c hc => by rw [List.eq_of_mem_replicate hc]; decide)).trans (by simp)
  have h := this k
  unfold runeCount at h ⊢
  rw [List.countP_cons_of_pos (by decide), List.countP_cons_of_neg (by decide), h]

theorem accent_whole (k : Nat) : Doc utf8Doc (.str (0xc3 :: 0xa9 :: List.replicate k 97)) :=
  .str _ (fun h => h.elim) (fun h => h.elim) fun _ c hc => by cases hc; decide

/-- A text is accepted by a string constraint exactly if it follows its rules, and is left as it is. -/
theorem string_returns {ext : Ext} {env : Env} {c : StrC} {t : GoStr} {σ : Sched} {w : GoVal} :
    Returns ext env (.string c) σ (.str t) .ok w ↔ w = .str t ∧ StrOk ext c t := by
  have key : ∀ fuel, ((sem ext env fuel (.string c)).val σ (.str t)).1 = .ok ↔ StrOk ext c t := by
    intro fuel
    have h := C10_string_exact (ext := ext) (ρ := refSem ext env fuel) (σ := σ) c (.str t)
    constructor
    · intro hr
      obtain ⟨s, h1, h2⟩ := h.1 hr
      cases h1
      exact h2
    · intro hs
      exact h.2 ⟨t, .self _ (by simp) (by simp), hs⟩
  have snd : ∀ fuel, ((sem ext env fuel (.string c)).val σ (.str t)).2 = .str t := fun _ => rfl
  constructor
  · rintro ⟨-, fuel, h⟩
    exact ⟨by rw [← snd fuel, h], (key fuel).1 (by rw [h])⟩
  · rintro ⟨rfl, h⟩
    exact ⟨by simp, 0, Prod.ext ((key 0).2 h) (snd 0)⟩

/-- C63: beyond that the fragment cannot reach. For every limit of at least two, there is a text, "éa…a", that is too short and
accepted, -/
theorem C63_min_edge (ext : Ext) (lib : SchemaLib) (resolve : Resolver) (R : GoStr → GoVal → Prop) (m n : Nat) (hn : 2 ≤ n) :
    ∃ v, Doc utf8Doc v ∧ ¬ (exMinSchema n).Valid ext R v ∧
      ∀ fuel τ b, Build lib m resolve fuel τ (exMinSchema n) = .ok b → ∀ σ, Returns ext (b.env m) b.root σ v .ok v := by
  refine ⟨_, accent_whole (n - 2), fun h => ?_, fun fuel τ b hb σ => ?_⟩
  · rw [exMinSchema, Schema.valid_mk] at h
    have := ((h.value rfl).string _ rfl).minLength n rfl
    rw [runeCount_accent] at this
    omega
  · rw [exMin_build] at hb
    cases hb
    refine string_returns.2 ⟨rfl, ?_⟩
    exact {
      max := fun h => absurd h (by simp [String'])
      min := fun _ => by simp; omega
      format := ⟨fun h => (by cases h), fun h => (by cases h), fun h => (by cases h), fun h => (by cases h), fun h => (by cases h), fun h => by cases h⟩
      regexp := fun _ h => by cases h
      enums := fun _ h => by cases h }

/-- and for every upper limit of at least one, there is one that is short enough and rejected. -/
theorem C63_max_edge (ext : Ext) (lib : SchemaLib) (resolve : Resolver) (R : GoStr → GoVal → Prop) (m n : Nat) (hn : 1 ≤ n) :
    ∃ v, Doc utf8Doc v ∧ (exMaxSchema n).Valid ext R v ∧
      ∀ fuel τ b, Build lib m resolve fuel τ (exMaxSchema n) = .ok b → ∀ σ w, ¬ Returns ext (b.env m) b.root σ v .ok w := by
  refine ⟨_, accent_whole (n - 1), ?_, fun fuel τ b hb σ w h => ?_⟩
  · rw [exMaxSchema, Schema.valid_mk]
    refine ⟨fun h => absurd rfl h, fun _ => ⟨fun _ h => (by cases h), fun _ h => (by cases h), fun h => absurd rfl h, fun h => absurd rfl h⟩,
      fun _ _ => ⟨_, .head _, .string _⟩, fun _ => valueRules_str.2 ⟨fun h => absurd rfl h, ?_⟩⟩
    refine ⟨fun _ h => (by cases h), fun k hk => ?_, fun _ h => (by cases h), ?_⟩
    · have hk : some (n : Int) = some k := hk
      cases hk
      rw [runeCount_accent]
      omega
    · constructor <;> intro h <;> cases h
  · rw [exMax_build] at hb
    cases hb
    have := (string_returns.1 h).2.max (by simp)
    simp at this
    omega

/-- Four bytes, three characters; and three characters, four bytes. -/
example : (∃ v, Doc utf8Doc v ∧ ¬ (exMinSchema 4).Valid demoExt (fun _ _ => False) v) ∧
    ∃ v, Doc utf8Doc v ∧ (exMaxSchema 3).Valid demoExt (fun _ _ => False) v :=
  ⟨let ⟨v, h1, h2, _⟩ := C63_min_edge demoExt lib0 (fun _ => .fail) _ 7 4 (by decide); ⟨v, h1, h2⟩,
   let ⟨v, h1, h2, _⟩ := C63_max_edge demoExt lib0 (fun _ => .fail) _ 7 3 (by decide); ⟨v, h1, h2⟩⟩

end Jsval
