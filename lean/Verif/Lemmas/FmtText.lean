import Verif.Lemmas.Quote
import Verif.Model.Generator
/-!
# Texts without `%`
-/
namespace Jsval
open Go

theorem fmtLoop_plain : ∀ (n : Nat) (s : GoStr), s.length ≤ n → (0x25 : UInt8) ∉ s → fmtLoop n s = s := by
  intro n
  induction n with
  | zero =>
    intro s h _
    have : s = [] := List.length_eq_zero_iff.1 (by omega)
    subst this; rfl
  | succ n ih =>
    intro s h hs
    match s with
    | [] => rfl
    | c :: s =>
      have hc : c ≠ 0x25 := fun e => hs (by simp [e])
      rw [fmtLoop, if_neg hc, ih s (by simpa using h) (fun h' => hs (by simp [h']))]

/-- A text without `%` is printed as it is. -/
theorem fmtText_plain {s : GoStr} (h : (0x25 : UInt8) ∉ s) : fmtText s = s := fmtLoop_plain _ _ le_rfl h

theorem trimDotNl_plain {s : GoStr} (h : ¬ b! ".\n" <:+ s) : trimDotNl s = s := if_neg h

theorem emitCode_plain {s : GoStr} (h : (0x25 : UInt8) ∉ s) (h' : ¬ b! ".\n" <:+ s) : emitCode (.ok s) = .ok s := by
  show Except.ok (fmtText (trimDotNl s)) = _
  rw [trimDotNl_plain h', fmtText_plain h]

theorem hexDigit_plain {d : Nat} (h : d < 16) : hexDigit d ≠ 0x25 := by
  have : ∀ d : Fin 16, hexDigit d.1 ≠ 0x25 := by decide
  exact this ⟨d, h⟩

theorem hexDigits_plain : ∀ (k n : Nat), (0x25 : UInt8) ∉ hexDigits k n
  | 0, _ => by simp [hexDigits]
  | k + 1, n => by
    simp only [hexDigits, List.mem_append, List.mem_singleton, not_or]
    exact ⟨hexDigits_plain k _, fun e => hexDigit_plain (Nat.mod_lt n (by omega)) e.symm⟩

theorem escRune_plain {isPrint : Nat → Bool} {r : Nat} {bytes : GoStr} (h : (0x25 : UInt8) ∉ bytes) :
    (0x25 : UInt8) ∉ escRune isPrint r bytes := by
  rcases escRune_cases isPrint r bytes with ⟨h1, e⟩ | ⟨h1, h2, h3, e⟩ | ⟨h1, e⟩ | ⟨h1, e⟩ | ⟨h1, e⟩ | ⟨h1, e⟩ | ⟨h1, e⟩ |
      ⟨h1, e⟩ | ⟨h1, e⟩ | ⟨h1, e⟩ | ⟨h1, h2, e⟩ | ⟨h1, e⟩ <;> rw [e]
  · simpa using h
  · exact h
  · decide
  · decide
  · decide
  · decide
  · decide
  · decide
  · decide
  · simp [hexDigits_plain]
  · simp [hexDigits_plain]
  · simp [hexDigits_plain]

theorem quoteLoop_plain {isPrint : Nat → Bool} : ∀ (n : Nat) (s : GoStr), (0x25 : UInt8) ∉ s →
    (0x25 : UInt8) ∉ quoteLoop isPrint n s := by
  intro n
  induction n with
  | zero => intro s _; simp [quoteLoop]
  | succ n ih =>
    intro s h
    match s with
    | [] => simp [quoteLoop]
    | b :: s =>
      rw [quoteLoop]
      cases hd : decodeRune (b :: s) with
      | none =>
        dsimp only
        simp only [List.mem_append, not_or]
        exact ⟨⟨by decide, hexDigits_plain _ _⟩, ih s (fun h' => h (by simp [h']))⟩
      | some p =>
        obtain ⟨r, w⟩ := p
        dsimp only
        simp only [List.mem_append, not_or]
        exact ⟨escRune_plain (fun h' => h (List.mem_of_mem_take h')), ih _ (fun h' => h (List.mem_of_mem_drop h'))⟩

theorem goQuote_plain {isPrint : Nat → Bool} {s : GoStr} (h : (0x25 : UInt8) ∉ s) : (0x25 : UInt8) ∉ goQuote isPrint s := by
  simp [goQuote, quoteLoop_plain _ _ h]

theorem digit_plain {d : Nat} (h : d < 10) : UInt8.ofNat (48 + d) ≠ 0x25 := by
  have : ∀ d : Fin 10, UInt8.ofNat (48 + d.1) ≠ 0x25 := by decide
  exact this ⟨d, h⟩

theorem natDec_plain (n : Nat) : (0x25 : UInt8) ∉ natDec n := by
  unfold natDec
  split_ifs
  · decide
  · simp only [List.mem_map, List.mem_reverse, not_exists, not_and]
    intro d hd
    exact digit_plain (Nat.digits_lt_base (by omega) hd)

theorem intDec_plain (n : Int) : (0x25 : UInt8) ∉ intDec n := by
  unfold intDec
  split_ifs <;> simp [natDec_plain]

theorem decDigits_plain : ∀ (k n : Nat), (0x25 : UInt8) ∉ decDigits k n
  | 0, _ => by simp [decDigits]
  | k + 1, n => by
    simp only [decDigits, List.mem_append, List.mem_singleton, not_or]
    exact ⟨decDigits_plain k _, fun e => digit_plain (Nat.mod_lt n (by omega)) e.symm⟩

theorem fltDec_plain : ∀ (f : F64), (0x25 : UInt8) ∉ fltDec f
  | .nan => by decide
  | .inf true => by decide
  | .inf false => by decide
  | .fin neg m => by
    have : (0x25 : UInt8) ∉ (if neg then [45] else [] : GoStr) := by cases neg <;> decide
    simp only [fltDec, List.mem_append, not_or]
    exact ⟨⟨⟨this, natDec_plain _⟩, by decide⟩, decDigits_plain _ _⟩

end Jsval
