import Mathlib.Data.Nat.Digits.Lemmas
import Verif.Spec.GoSyntax
/-!
# Reading back quoted strings and numbers
-/
namespace Jsval
open Go

theorem u8_ext {a b : UInt8} (h : a.toNat = b.toNat) : a = b := UInt8.toNat_inj.1 h

theorem inRange_iff {lo hi b : UInt8} : inRange lo hi b = true ↔ lo.toNat ≤ b.toNat ∧ b.toNat ≤ hi.toNat := by
  simp [inRange, UInt8.le_iff_toNat_le]

theorem ofNat_toNat {n : Nat} (h : n < 256) : (UInt8.ofNat n).toNat = n := by
  simp [UInt8.toNat_ofNat']; omega

/-- What `decodeRune` returns: an ASCII byte, or a multi-byte sequence that `encodeRune` produces. -/
theorem decodeRune_spec {b : UInt8} {s : GoStr} {r w : Nat} (h : decodeRune (b :: s) = some (r, w)) :
    (b.toNat < 0x80 ∧ r = b.toNat ∧ w = 1) ∨
    (0x80 ≤ r ∧ r < 0x110000 ∧ 2 ≤ w ∧ w ≤ (b :: s).length ∧ encodeRune r = some ((b :: s).take w) ∧
      ∀ c ∈ (b :: s).take w, 0x80 ≤ c.toNat) := by
  unfold decodeRune at h
  dsimp only at h
  by_cases h0 : b < 0x80
  · rw [if_pos h0] at h
    left
    simp only [Option.some.injEq, Prod.mk.injEq] at h
    rw [UInt8.lt_iff_toNat_lt] at h0
    exact ⟨h0, h.1.symm, h.2.symm⟩
  rw [if_neg h0] at h
  by_cases h1 : inRange 0xC2 0xDF b = true
  · rw [if_pos h1] at h
    right
    rw [inRange_iff] at h1
    match s with
    | [] => simp at h
    | b1 :: s =>
      dsimp only at h
      rw [Option.ite_none_right_eq_some] at h
      obtain ⟨h4, h⟩ := h
      rw [inRange_iff] at h4
      simp only [Option.some.injEq, Prod.mk.injEq] at h
      obtain ⟨rfl, rfl⟩ := h
      simp at h1 h4
      refine ⟨by omega, by omega, by omega, by simp, ?_, ?_⟩
      · unfold encodeRune
        rw [if_neg (by omega), if_pos (by omega)]
        simp only [List.take, Option.some.injEq, List.cons.injEq, and_true]
        constructor <;> apply u8_ext <;> rw [ofNat_toNat (by omega)] <;> omega
      · intro c hc
        simp at hc
        rcases hc with rfl | rfl <;> omega
  rw [if_neg h1] at h
  by_cases h2 : inRange 0xE0 0xEF b = true
  · rw [if_pos h2] at h
    right
    rw [inRange_iff] at h2
    match s with
    | [] => simp at h
    | [_] => simp at h
    | b1 :: b2 :: s =>
      dsimp only at h
      rw [Option.ite_none_right_eq_some] at h
      obtain ⟨h4, h⟩ := h
      simp only [Bool.and_eq_true, inRange_iff] at h4
      simp only [Option.some.injEq, Prod.mk.injEq] at h
      obtain ⟨rfl, rfl⟩ := h
      obtain ⟨⟨h5, h6⟩, h7⟩ := h4
      simp at h2 h7
      have hb1 : 0x80 ≤ b1.toNat ∧ b1.toNat ≤ 0xBF := by
        constructor
        · refine le_trans ?_ h5
          split <;> simp
        · refine le_trans h6 ?_
          split <;> simp
      have e0 : b.toNat = 0xE0 → 0xA0 ≤ b1.toNat := by
        intro hb
        have : b = 0xE0 := u8_ext hb
        subst this
        simpa using h5
      have e1 : b.toNat = 0xED → b1.toNat ≤ 0x9F := by
        intro hb
        have : b = 0xED := u8_ext hb
        subst this
        simpa using h6
      refine ⟨by omega, by omega, by omega, by simp, ?_, ?_⟩
      · unfold encodeRune
        rw [if_neg (by omega), if_neg (by omega), if_neg (by omega), if_pos (by omega)]
        simp only [List.take, Option.some.injEq, List.cons.injEq, and_true]
        refine ⟨?_, ?_, ?_⟩ <;> apply u8_ext <;> rw [ofNat_toNat (by omega)] <;> omega
      · intro c hc
        simp at hc
        rcases hc with rfl | rfl | rfl <;> omega
  rw [if_neg h2] at h
  by_cases h3 : inRange 0xF0 0xF4 b = true
  · rw [if_pos h3] at h
    right
    rw [inRange_iff] at h3
    match s with
    | [] => simp at h
    | [_] => simp at h
    | [_, _] => simp at h
    | b1 :: b2 :: b3 :: s =>
      dsimp only at h
      rw [Option.ite_none_right_eq_some] at h
      obtain ⟨h4, h⟩ := h
      simp only [Bool.and_eq_true, inRange_iff] at h4
      simp only [Option.some.injEq, Prod.mk.injEq] at h
      obtain ⟨rfl, rfl⟩ := h
      obtain ⟨⟨⟨h5, h6⟩, h7⟩, h8⟩ := h4
      simp at h3 h7 h8
      have hb1 : 0x80 ≤ b1.toNat ∧ b1.toNat ≤ 0xBF := by
        constructor
        · refine le_trans ?_ h5
          split <;> simp
        · refine le_trans h6 ?_
          split <;> simp
      have e0 : b.toNat = 0xF0 → 0x90 ≤ b1.toNat := by
        intro hb
        have : b = 0xF0 := u8_ext hb
        subst this
        simpa using h5
      have e1 : b.toNat = 0xF4 → b1.toNat ≤ 0x8F := by
        intro hb
        have : b = 0xF4 := u8_ext hb
        subst this
        simpa using h6
      refine ⟨by omega, by omega, by omega, by simp, ?_, ?_⟩
      · unfold encodeRune
        rw [if_neg (by omega), if_neg (by omega), if_neg (by omega), if_neg (by omega), if_pos (by omega)]
        simp only [List.take, Option.some.injEq, List.cons.injEq, and_true]
        refine ⟨?_, ?_, ?_, ?_⟩ <;> apply u8_ext <;> rw [ofNat_toNat (by omega)] <;> omega
      · intro c hc
        simp at hc
        rcases hc with rfl | rfl | rfl | rfl <;> omega
  · rw [if_neg h3] at h
    cases h

/-! ## Running the lexer -/

theorem lexRun_append (s : LSt) (a b : GoStr) : lexRun s (a ++ b) = lexRun (lexRun s a) b := by
  simp [lexRun, List.foldl_append]

theorem lexRun_nil (s : LSt) : lexRun s [] = s := rfl

theorem lexRun_cons (s : LSt) (c : UInt8) (t : GoStr) : lexRun s (c :: t) = lexRun (lexStep s c) t := rfl

theorem hexDigit_val {d : Nat} (h : d < 16) : hexVal (hexDigit d) = some d := by
  have : ∀ d : Fin 16, hexVal (hexDigit d.1) = some d.1 := by decide
  exact this ⟨d, h⟩

/-- What a finished hexadecimal escape leaves. -/
def hexDone (out : List Tok) (acc : GoStr) (v : Nat) (byte semi : Bool) : LSt :=
  if byte then ⟨out, .str (acc ++ [UInt8.ofNat v]), semi⟩
  else
    match encodeRune v with
    | some bs => ⟨out, .str (acc ++ bs), semi⟩
    | none => ⟨out, .bad, semi⟩

theorem lexRun_hex {out acc byte semi} : ∀ (k n left v : Nat), left = k + 1 →
    lexRun ⟨out, .hex acc (k + 1) v byte, semi⟩ (hexDigits (k + 1) n) =
      hexDone out acc (v * 16 ^ (k + 1) + n % 16 ^ (k + 1)) byte semi := by
  intro k n
  suffices h : ∀ (j n left v : Nat), j ≤ left →
      lexRun ⟨out, .hex acc (left + 1) v byte, semi⟩ (hexDigits j n) =
        ⟨out, .hex acc (left + 1 - j) (v * 16 ^ j + n % 16 ^ j) byte, semi⟩ by
    intro left v _
    rw [hexDigits, lexRun_append, h k (n / 16) k v le_rfl]
    have e : k + 1 - k = 1 := by omega
    have hd : n % 16 < 16 := Nat.mod_lt _ (by omega)
    rw [e, lexRun_cons, lexRun_nil]
    simp only [lexStep, hexDigit_val hd, le_refl, if_true, hexDone]
    have : (v * 16 ^ k + n / 16 % 16 ^ k) * 16 + n % 16 = v * 16 ^ (k + 1) + n % 16 ^ (k + 1) := by
      rw [pow_succ, show 16 ^ k * 16 = 16 * 16 ^ k from Nat.mul_comm .., Nat.mod_mul]
      ring
    rw [this]
    rfl
  intro j
  induction j with
  | zero => intro n left v _; simp [hexDigits, lexRun_nil, Nat.mod_one]
  | succ j ih =>
    intro n left v hj
    rw [hexDigits, lexRun_append, ih (n / 16) left v (by omega)]
    have hd : n % 16 < 16 := Nat.mod_lt _ (by omega)
    rw [lexRun_cons, lexRun_nil]
    have hle : ¬ (left + 1 - j ≤ 1) := by omega
    simp only [lexStep, hexDigit_val hd, hle, if_false]
    have : (v * 16 ^ j + n / 16 % 16 ^ j) * 16 + n % 16 = v * 16 ^ (j + 1) + n % 16 ^ (j + 1) := by
      rw [pow_succ, show 16 ^ j * 16 = 16 * 16 ^ j from Nat.mul_comm .., Nat.mod_mul]
      ring
    rw [this]
    congr 2

/-- Raw bytes inside a string literal. -/
theorem lexRun_raw {out semi} : ∀ (bs acc : GoStr), (∀ c ∈ bs, c ≠ 0x22 ∧ c ≠ 0x5C ∧ c ≠ 0x0A) →
    lexRun ⟨out, .str acc, semi⟩ bs = ⟨out, .str (acc ++ bs), semi⟩
  | [], acc, _ => by simp [lexRun_nil]
  | c :: bs, acc, h => by
    have hc := h c (by simp)
    rw [lexRun_cons]
    have : lexStep ⟨out, .str acc, semi⟩ c = ⟨out, .str (acc ++ [c]), semi⟩ := by
      simp [lexStep, hc.1, hc.2.1, hc.2.2]
    rw [this, lexRun_raw bs (acc ++ [c]) (fun x hx => h x (by simp [hx]))]
    simp

theorem toNat_eq {c : UInt8} {n : Nat} (h : c.toNat = n) (hn : n < 256) : c = UInt8.ofNat n := by
  apply u8_ext; rw [ofNat_toNat hn, h]

/-- The ways `escRune` writes a rune. -/
theorem escRune_cases (isPrint : Nat → Bool) (r : Nat) (bytes : GoStr) :
    ((r = 0x22 ∨ r = 0x5C) ∧ escRune isPrint r bytes = 0x5C :: bytes) ∨
    (r ≠ 0x22 ∧ r ≠ 0x5C ∧ 0x20 ≤ r ∧ escRune isPrint r bytes = bytes) ∨
    (r = 0x07 ∧ escRune isPrint r bytes = b! "\\a") ∨
    (r = 0x08 ∧ escRune isPrint r bytes = b! "\\b") ∨
    (r = 0x0C ∧ escRune isPrint r bytes = b! "\\f") ∨
    (r = 0x0A ∧ escRune isPrint r bytes = b! "\\n") ∨
    (r = 0x0D ∧ escRune isPrint r bytes = b! "\\r") ∨
    (r = 0x09 ∧ escRune isPrint r bytes = b! "\\t") ∨
    (r = 0x0B ∧ escRune isPrint r bytes = b! "\\v") ∨
    (r < 0x80 ∧ escRune isPrint r bytes = b! "\\x" ++ hexDigits 2 r) ∨
    (0x80 ≤ r ∧ r < 0x10000 ∧ escRune isPrint r bytes = b! "\\u" ++ hexDigits 4 r) ∨
    (0x10000 ≤ r ∧ escRune isPrint r bytes = b! "\\U" ++ hexDigits 8 r) := by
  unfold escRune
  by_cases h1 : r = 0x22 ∨ r = 0x5C
  · rw [if_pos h1]; exact .inl ⟨h1, rfl⟩
  rw [if_neg h1]; refine .inr ?_
  push Not at h1
  by_cases h2 : (0x20 ≤ r ∧ r < 0x7F) ∨ (0x80 ≤ r ∧ isPrint r = true)
  · rw [if_pos h2]; exact .inl ⟨h1.1, h1.2, by omega, rfl⟩
  rw [if_neg h2]; refine .inr ?_
  by_cases h3 : r = 0x07
  · rw [if_pos h3]; exact .inl ⟨h3, rfl⟩
  rw [if_neg h3]; refine .inr ?_
  by_cases h4 : r = 0x08
  · rw [if_pos h4]; exact .inl ⟨h4, rfl⟩
  rw [if_neg h4]; refine .inr ?_
  by_cases h5 : r = 0x0C
  · rw [if_pos h5]; exact .inl ⟨h5, rfl⟩
  rw [if_neg h5]; refine .inr ?_
  by_cases h6 : r = 0x0A
  · rw [if_pos h6]; exact .inl ⟨h6, rfl⟩
  rw [if_neg h6]; refine .inr ?_
  by_cases h7 : r = 0x0D
  · rw [if_pos h7]; exact .inl ⟨h7, rfl⟩
  rw [if_neg h7]; refine .inr ?_
  by_cases h8 : r = 0x09
  · rw [if_pos h8]; exact .inl ⟨h8, rfl⟩
  rw [if_neg h8]; refine .inr ?_
  by_cases h9 : r = 0x0B
  · rw [if_pos h9]; exact .inl ⟨h9, rfl⟩
  rw [if_neg h9]; refine .inr ?_
  by_cases h10 : r < 0x20 ∨ r = 0x7F
  · rw [if_pos h10]; exact .inl ⟨by omega, rfl⟩
  rw [if_neg h10]; refine .inr ?_
  by_cases h11 : r < 0x10000
  · rw [if_pos h11]; exact .inl ⟨by omega, h11, rfl⟩
  rw [if_neg h11]; exact .inr ⟨by omega, rfl⟩

/-- One escaped rune. -/
theorem lexRun_escRune {out acc semi isPrint} {b : UInt8} {s : GoStr} {r w : Nat}
    (h : decodeRune (b :: s) = some (r, w)) :
    lexRun ⟨out, .str acc, semi⟩ (escRune isPrint r ((b :: s).take w)) = ⟨out, .str (acc ++ (b :: s).take w), semi⟩ := by
  rcases decodeRune_spec h with ⟨hb, rfl, rfl⟩ | ⟨h80, hmax, hw, hlen, henc, hall⟩
  · simp only [List.take_succ_cons, List.take_zero]
    rcases escRune_cases isPrint b.toNat [b] with ⟨h1, e⟩ | ⟨h1, h2, h3, e⟩ | ⟨h1, e⟩ | ⟨h1, e⟩ | ⟨h1, e⟩ | ⟨h1, e⟩ | ⟨h1, e⟩ |
      ⟨h1, e⟩ | ⟨h1, e⟩ | ⟨h1, e⟩ | ⟨h1, h2, e⟩ | ⟨h1, e⟩ <;> rw [e]
    · rcases h1 with h1 | h1
      · obtain rfl : b = 0x22 := u8_ext h1
        rfl
      · obtain rfl : b = 0x5C := u8_ext h1
        rfl
    · apply lexRun_raw
      intro c hc
      simp only [List.mem_singleton] at hc
      subst hc
      refine ⟨fun e => h1 (by subst e; rfl), fun e => h2 (by subst e; rfl), fun e => ?_⟩
      subst e
      simp at h3
    · obtain rfl : b = 0x07 := u8_ext h1
      rfl
    · obtain rfl : b = 0x08 := u8_ext h1
      rfl
    · obtain rfl : b = 0x0C := u8_ext h1
      rfl
    · obtain rfl : b = 0x0A := u8_ext h1
      rfl
    · obtain rfl : b = 0x0D := u8_ext h1
      rfl
    · obtain rfl : b = 0x09 := u8_ext h1
      rfl
    · obtain rfl : b = 0x0B := u8_ext h1
      rfl
    · rw [lexRun_append]
      have : lexRun ⟨out, .str acc, semi⟩ (b! "\\x") = ⟨out, .hex acc (1 + 1) 0 true, semi⟩ := rfl
      rw [this, lexRun_hex 1 _ 2 0 rfl]
      simp only [hexDone, if_true]
      have e : UInt8.ofNat (0 * 16 ^ (1 + 1) + b.toNat % 16 ^ (1 + 1)) = b := by
        apply u8_ext; rw [ofNat_toNat (by omega)]; omega
      rw [e]
    · omega
    · omega
  · rcases escRune_cases isPrint r ((b :: s).take w) with ⟨h1, e⟩ | ⟨h1, h2, h3, e⟩ | ⟨h1, e⟩ | ⟨h1, e⟩ | ⟨h1, e⟩ | ⟨h1, e⟩ |
      ⟨h1, e⟩ | ⟨h1, e⟩ | ⟨h1, e⟩ | ⟨h1, e⟩ | ⟨h1, h2, e⟩ | ⟨h1, e⟩
    all_goals first | omega | rw [e]
    · apply lexRun_raw
      intro c hc
      have := hall c hc
      refine ⟨?_, ?_, ?_⟩ <;> rintro rfl <;> simp at this
    · rw [lexRun_append]
      have : lexRun ⟨out, .str acc, semi⟩ (b! "\\u") = ⟨out, .hex acc (3 + 1) 0 false, semi⟩ := rfl
      rw [this, lexRun_hex 3 _ 4 0 rfl]
      have e : 0 * 16 ^ (3 + 1) + r % 16 ^ (3 + 1) = r := by omega
      rw [e]
      simp [hexDone, henc]
    · rw [lexRun_append]
      have : lexRun ⟨out, .str acc, semi⟩ (b! "\\U") = ⟨out, .hex acc (7 + 1) 0 false, semi⟩ := rfl
      rw [this, lexRun_hex 7 _ 8 0 rfl]
      have e : 0 * 16 ^ (7 + 1) + r % 16 ^ (7 + 1) = r := by omega
      rw [e]
      simp [hexDone, henc]

theorem lexRun_quoteLoop {out semi isPrint} : ∀ (n : Nat) (s acc : GoStr), s.length ≤ n →
    lexRun ⟨out, .str acc, semi⟩ (quoteLoop isPrint n s) = ⟨out, .str (acc ++ s), semi⟩ := by
  intro n
  induction n with
  | zero =>
    intro s acc h
    have : s = [] := List.length_eq_zero_iff.1 (by omega)
    subst this
    simp [quoteLoop, lexRun_nil]
  | succ n ih =>
    intro s acc h
    match s with
    | [] => simp [quoteLoop, lexRun_nil]
    | b :: s =>
      rw [quoteLoop]
      cases hd : decodeRune (b :: s) with
      | none =>
        dsimp only
        rw [List.append_assoc, lexRun_append]
        have e1 : lexRun ⟨out, .str acc, semi⟩ (b! "\\x") = ⟨out, .hex acc (1 + 1) 0 true, semi⟩ := rfl
        rw [e1, lexRun_append, lexRun_hex 1 _ 2 0 rfl]
        simp only [hexDone, if_true]
        have hb := b.toNat_lt
        have e : UInt8.ofNat (0 * 16 ^ (1 + 1) + b.toNat % 16 ^ (1 + 1)) = b := by
          apply u8_ext; rw [ofNat_toNat (by omega)]; omega
        rw [e, ih s _ (by simpa using h)]
        simp
      | some p =>
        obtain ⟨r, w⟩ := p
        dsimp only
        have hw : 1 ≤ w := by
          rcases decodeRune_spec hd with ⟨_, _, rfl⟩ | ⟨_, _, h2, _⟩ <;> omega
        rw [lexRun_append, lexRun_escRune hd, ih _ _ (by rw [List.length_drop]; omega)]
        rw [List.append_assoc, List.take_append_drop]

/-- A quoted string is read back as one string token with the original value. -/
theorem lexRun_quote {out semi isPrint} (s : GoStr) :
    lexRun ⟨out, .normal, semi⟩ (goQuote isPrint s) = ⟨.str s :: out, .normal, true⟩ := by
  unfold goQuote
  rw [List.cons_append, lexRun_cons]
  have : lexStep ⟨out, .normal, semi⟩ 0x22 = ⟨out, .str [], semi⟩ := rfl
  rw [this, lexRun_append, lexRun_quoteLoop _ _ _ le_rfl]
  rfl

/-! ## Numbers -/

/-- Value of a list of digits, most significant first. -/
def digitsVal (v : Nat) : List Nat → Nat
  | [] => v
  | d :: l => digitsVal (v * 10 + d) l

theorem digit_facts {d : Nat} (h : d < 10) :
    isDigit (UInt8.ofNat (48 + d)) = true ∧ (UInt8.ofNat (48 + d)).toNat - 48 = d ∧
      isLetter (UInt8.ofNat (48 + d)) = false ∧ (UInt8.ofNat (48 + d) != 0x30) = decide (d ≠ 0) := by
  have : ∀ d : Fin 10, isDigit (UInt8.ofNat (48 + d.1)) = true ∧ (UInt8.ofNat (48 + d.1)).toNat - 48 = d.1 ∧
      isLetter (UInt8.ofNat (48 + d.1)) = false ∧ (UInt8.ofNat (48 + d.1) != 0x30) = decide (d.1 ≠ 0) := by decide
  exact this ⟨d, h⟩

theorem lexRun_digits {out semi} : ∀ (l : List Nat) (v : Nat), (∀ d ∈ l, d < 10) →
    lexRun ⟨out, .int v true, semi⟩ (l.map (fun d => UInt8.ofNat (48 + d))) = ⟨out, .int (digitsVal v l) true, semi⟩
  | [], v, _ => rfl
  | d :: l, v, h => by
    obtain ⟨h1, h2, _, _⟩ := digit_facts (h d (by simp))
    rw [List.map_cons, lexRun_cons]
    have : lexStep ⟨out, .int v true, semi⟩ (UInt8.ofNat (48 + d)) = ⟨out, .int (v * 10 + d) true, semi⟩ := by
      simp only [lexStep, h1, if_true, h2]
    rw [this, lexRun_digits l _ (fun x hx => h x (by simp [hx]))]
    rfl

theorem digitsVal_append (v : Nat) : ∀ (l m : List Nat), digitsVal v (l ++ m) = digitsVal (digitsVal v l) m
  | [], _ => rfl
  | d :: l, m => by
    show digitsVal (v * 10 + d) (l ++ m) = _
    rw [digitsVal_append]
    rfl

theorem digitsVal_reverse : ∀ (l : List Nat), digitsVal 0 l.reverse = Nat.ofDigits 10 l
  | [] => rfl
  | d :: l => by
    rw [List.reverse_cons, digitsVal_append, digitsVal_reverse l, Nat.ofDigits_cons]
    show Nat.ofDigits 10 l * 10 + d = d + 10 * Nat.ofDigits 10 l
    ring

/-- A decimal number is read as an integer literal (if nothing continues it). -/
theorem lexRun_natDec {out semi} (n : Nat) : ∃ more,
    lexRun ⟨out, .normal, semi⟩ (natDec n) = ⟨out, .int n more, semi⟩ := by
  unfold natDec
  split_ifs with h
  · subst h; exact ⟨false, rfl⟩
  · refine ⟨true, ?_⟩
    have hne : Nat.digits 10 n ≠ [] := Nat.digits_ne_nil_iff_ne_zero.2 h
    have hd : ∀ d ∈ (Nat.digits 10 n).reverse, d < 10 := by
      intro d hd
      exact Nat.digits_lt_base (by omega) (List.mem_reverse.1 hd)
    have hv : digitsVal 0 (Nat.digits 10 n).reverse = n := by
      rw [digitsVal_reverse, Nat.ofDigits_digits]
    cases hr : (Nat.digits 10 n).reverse with
    | nil => exact absurd (List.reverse_eq_nil_iff.1 hr) hne
    | cons d l =>
      rw [hr] at hd hv
      obtain ⟨h1, h2, h3, h4⟩ := digit_facts (hd d (by simp))
      have hd0 : d ≠ 0 := by
        have h5 := Nat.getLast_digit_ne_zero 10 h
        intro e
        apply h5
        have : Nat.digits 10 n = (d :: l).reverse := by rw [← hr, List.reverse_reverse]
        simp [this, e]
      rw [List.map_cons, lexRun_cons]
      have e : lexStep ⟨out, .normal, semi⟩ (UInt8.ofNat (48 + d)) = ⟨out, .int d true, semi⟩ := by
        have n1 : UInt8.ofNat (48 + d) ≠ 0x0A := by rintro e; rw [e] at h1; exact absurd h1 (by decide)
        have n2 : UInt8.ofNat (48 + d) ≠ 0x20 := by rintro e; rw [e] at h1; exact absurd h1 (by decide)
        have n3 : UInt8.ofNat (48 + d) ≠ 0x09 := by rintro e; rw [e] at h1; exact absurd h1 (by decide)
        have n4 : UInt8.ofNat (48 + d) ≠ 0x0D := by rintro e; rw [e] at h1; exact absurd h1 (by decide)
        simp only [lexStep, lexNormal, h1, h2, h3, h4, beq_eq_false_iff_ne.2 n1, beq_eq_false_iff_ne.2 n2,
          beq_eq_false_iff_ne.2 n3, beq_eq_false_iff_ne.2 n4]
        simp [hd0]
      rw [e, lexRun_digits l _ (fun x hx => hd x (by simp [hx]))]
      have : digitsVal d l = n := by
        rw [← hv]; show _ = digitsVal (0 * 10 + d) l; rw [Nat.zero_mul, Nat.zero_add]
      rw [this]

theorem lexRun_decDigits {out semi} : ∀ (j n v k : Nat),
    lexRun ⟨out, .flt v k, semi⟩ (decDigits j n) = ⟨out, .flt (v * 10 ^ j + n % 10 ^ j) (k + j), semi⟩ := by
  intro j
  induction j with
  | zero => intro n v k; simp [decDigits, lexRun_nil, Nat.mod_one]
  | succ j ih =>
    intro n v k
    rw [decDigits, lexRun_append, ih]
    obtain ⟨h1, h2, _, _⟩ := digit_facts (d := n % 10) (Nat.mod_lt _ (by omega))
    rw [lexRun_cons, lexRun_nil]
    simp only [lexStep, h1, if_true, h2]
    have : (v * 10 ^ j + n / 10 % 10 ^ j) * 10 + n % 10 = v * 10 ^ (j + 1) + n % 10 ^ (j + 1) := by
      rw [pow_succ, show 10 ^ j * 10 = 10 * 10 ^ j from Nat.mul_comm .., Nat.mod_mul]
      ring
    rw [this]
    rfl

end Jsval
