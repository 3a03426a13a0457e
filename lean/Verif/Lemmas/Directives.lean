import Verif.Lemmas.Percent
/-!
# Quoted texts used as formats

What `fmt.Fprintf(out, s)` makes of a text with a quoted string in it, for every string: either the text is no longer Go,
or it has another string there.
-/
namespace Jsval
open Go

/-! ## Rewriting directives -/

/-- Reports about `*` in a directive. -/
def Reports (pre : GoStr) : Prop :=
  pre = [] ∨ pre = b! "%!(BADWIDTH)" ∨ pre = b! "%!(BADPREC)" ∨ pre = b! "%!(BADWIDTH)%!(BADPREC)"

/-- A directive and what is written for it. -/
inductive Turns : GoStr → GoStr → Prop where
  | percent (m pre) : m.head? ≠ some 0x21 → Reports pre → (m = [] → pre = []) → Turns (0x25 :: (m ++ [0x25])) (pre ++ [0x25])
  | verb (m pre v w) : m.head? ≠ some 0x21 → Reports pre → v ≠ [] → (0x25 : UInt8) ∉ v → (v.head? = some 0x21 → v = [0x21]) →
      (w = b! "(MISSING)" ∨ w = b! "(BADINDEX)") → (m = [] → pre = [] ∧ w = b! "(MISSING)") →
      Turns (0x25 :: (m ++ v)) (pre ++ b! "%!" ++ v ++ w)

/-- A text and what is written when it is used as a format. -/
inductive Rewrites : GoStr → GoStr → Prop where
  | nil : Rewrites [] []
  | char (c s t) : c ≠ 0x25 → Rewrites s t → Rewrites (c :: s) (c :: t)
  | turn (d o s t) : Turns d o → Rewrites s t → Rewrites (d ++ s) (o ++ t)

/-- Every `%` is followed by `!` or the last character. -/
def marked : GoStr → Bool
  | [] => true
  | c :: r => (c != 0x25 || r.head?.all (· == 0x21)) && marked r

theorem marked_plain : ∀ {l : GoStr}, (0x25 : UInt8) ∉ l → marked l = true
  | [], _ => rfl
  | c :: l, h => by
    simp only [List.mem_cons, not_or] at h
    have : c ≠ 0x25 := fun e => h.1 e.symm
    simp [marked, this, marked_plain h.2]

theorem marked_at {c : UInt8} {y : GoStr} : ∀ {x : GoStr}, marked (x ++ 0x25 :: c :: y) = true → c = 0x21
  | [], h => by simp [marked] at h; exact h.1
  | _ :: x, h => by
    simp only [List.cons_append, marked, Bool.and_eq_true] at h
    exact marked_at h.2

theorem Turns.marked {d o : GoStr} (h : Turns d o) : marked o = true := by
  cases h with
  | percent m pre h1 h2 h3 => rcases h2 with rfl | rfl | rfl | rfl <;> decide
  | verb m pre v w h1 h2 h3 h4 h5 h6 h7 =>
    have hv : (0x25 : UInt8) ∉ v ++ w := by
      rcases h6 with rfl | rfl <;> simpa using h4
    have := marked_plain hv
    rcases h2 with rfl | rfl | rfl | rfl <;> simp [Jsval.marked, this]

/-- A directive that starts like a report. -/
theorem Turns.bang {d o y : GoStr} (h : Turns (0x25 :: d) o) (e : d = 0x21 :: y) : d = [0x21] ∧ o = b! "%!!(MISSING)" := by
  generalize hx : (0x25 :: d : GoStr) = x at h
  cases h with
  | percent m pre h1 h2 h3 =>
    cases hx
    cases m with
    | nil => simp at e
    | cons c m => simp at e h1; exact absurd e.1 h1
  | verb m pre v w h1 h2 h3 h4 h5 h6 h7 =>
    cases hx
    cases m with
    | nil =>
      obtain ⟨rfl, rfl⟩ := h7 rfl
      have := h5 (by rw [List.nil_append] at e; rw [e]; rfl)
      subst this
      exact ⟨rfl, rfl⟩
    | cons c m => simp at e h1; exact absurd e.1 h1

theorem Turns.shape {d o : GoStr} (h : Turns d o) : ∃ c d', d = 0x25 :: c :: d' := by
  cases h with
  | percent m pre h1 h2 h3 => cases m <;> exact ⟨_, _, rfl⟩
  | verb m pre v w h1 h2 h3 h4 h5 h6 h7 =>
    cases m with
    | nil => cases v with
      | nil => exact absurd rfl h3
      | cons c v => exact ⟨_, _, rfl⟩
    | cons c m => exact ⟨_, _, rfl⟩

theorem Turns.shape' {d o : GoStr} (h : Turns d o) : o = [0x25] ∨ ∃ o', o = 0x25 :: 0x21 :: o' := by
  cases h with
  | percent m pre h1 h2 h3 =>
    rcases h2 with rfl | rfl | rfl | rfl
    · exact .inl rfl
    all_goals exact .inr ⟨_, rfl⟩
  | verb m pre v w h1 h2 h3 h4 h5 h6 h7 => rcases h2 with rfl | rfl | rfl | rfl <;> exact .inr ⟨_, rfl⟩

/-- A directive does not occur within what is written for it, except at its start. -/
theorem Turns.notInside {d o w x : GoStr} (h : Turns d o) (hw : w ≠ []) : o ≠ w ++ (d ++ x) := by
  intro e
  obtain ⟨c, d', rfl⟩ := h.shape
  have hm := h.marked
  rw [e] at hm
  have hc : c = 0x21 := marked_at (x := w) (y := d' ++ x) (by simpa using hm)
  subst hc
  obtain ⟨h1, h2⟩ := h.bang rfl
  rw [h2] at e
  have hcnt := congrArg (List.count 0x25) e
  cases w with
  | nil => exact hw rfl
  | cons a w =>
    have ha : a = 0x25 := by simp at e; exact e.1.symm
    subst ha
    simp at hcnt

/-- What is written does not end in the whole text. -/
theorem Rewrites.notSuffix {s t : GoStr} (h : Rewrites s t) : ∀ {w : GoStr}, w ≠ [] → t ≠ w ++ s := by
  induction h with
  | nil => intro w hw e; simp at e; exact hw e
  | char c s t hc _ ih =>
    intro w hw e
    cases w with
    | nil => exact hw rfl
    | cons a w =>
      simp only [List.cons_append, List.cons.injEq] at e
      exact ih (w := w ++ [c]) (by simp) (by rw [e.2]; simp)
  | turn d o s t hd _ ih =>
    intro w hw e
    rw [← List.append_assoc] at e
    rcases List.append_eq_append_iff.1 e with ⟨y, h1, h2⟩ | ⟨y, h1, h2⟩
    · by_cases hy : y = []
      · subst hy
        exact hd.notInside hw (x := []) (by simpa using h1.symm)
      · exact ih hy h2
    · exact hd.notInside hw (x := y) (by simpa using h1)

theorem Rewrites.plain_append {u t : GoStr} : ∀ {x : GoStr}, (0x25 : UInt8) ∉ x → Rewrites (x ++ u) t → ∃ t', t = x ++ t' ∧ Rewrites u t'
  | [], _, h => ⟨t, rfl, h⟩
  | c :: x, hx, h => by
    simp only [List.mem_cons, not_or] at hx
    generalize he : c :: x ++ u = s at h
    cases h with
    | nil => cases he
    | char c' s t hc h =>
      cases he
      obtain ⟨t', rfl, h'⟩ := Rewrites.plain_append hx.2 h
      exact ⟨t', rfl, h'⟩
    | turn d o s t hd h =>
      obtain ⟨c', d', rfl⟩ := hd.shape
      simp only [List.cons_append, List.cons.injEq] at he
      exact absurd he.1.symm hx.1

/-- What is written is not the text without a beginning that has no `%`. -/
theorem Rewrites.notPrefix {x : GoStr} (hx : (0x25 : UInt8) ∉ x) (hne : x ≠ []) : ∀ (n : Nat) {s t : GoStr}, s.length ≤ n → Rewrites s t →
    s ≠ x ++ t := by
  intro n
  induction n with
  | zero =>
    intro s t hl _ e
    have : s = [] := List.length_eq_zero_iff.1 (by omega)
    subst this
    simp at e
    exact hne e.1
  | succ n ih =>
    intro s t hl h e
    subst e
    obtain ⟨t', ht, h'⟩ := h.plain_append hx
    refine ih (s := t) (t := t') ?_ h' ht
    have : 0 < x.length := List.length_pos_iff.2 hne
    simp at hl
    omega

/-- A text with `%` is changed. -/
theorem Rewrites.changes {s t : GoStr} (h : Rewrites s t) (hp : (0x25 : UInt8) ∈ s) : s ≠ t := by
  induction h with
  | nil => cases hp
  | char c s t hc h ih =>
    intro e
    simp only [List.cons.injEq, true_and] at e
    rcases List.mem_cons.1 hp with hp | hp
    · exact hc hp.symm
    · exact ih hp e
  | turn d o s t hd h ih =>
    intro e
    obtain ⟨c, d', rfl⟩ := hd.shape
    rcases hd.shape' with rfl | ⟨o', rfl⟩
    · simp only [List.cons_append, List.cons.injEq, true_and, List.nil_append] at e
      exact h.notSuffix (w := c :: d') (by simp) e.symm
    · simp only [List.cons_append, List.cons.injEq, true_and] at e
      obtain ⟨h1, h2⟩ := hd.bang (y := d') (by rw [e.1])
      cases h1
      cases h2
      exact Rewrites.notPrefix (x := b! "!(MISSING)") (by decide) (by simp) _ le_rfl h (by simpa using e.2)

theorem Rewrites.same {s : GoStr} (h : (0x25 : UInt8) ∉ s) : Rewrites s s := by
  induction s with
  | nil => exact .nil
  | cons c s ih =>
    simp only [List.mem_cons, not_or] at h
    exact .char c s s (fun e => h.1 e.symm) (ih h.2)

theorem Rewrites.plain_prefix {s t : GoStr} (h : Rewrites s t) : ∀ {x : GoStr}, (0x25 : UInt8) ∉ x → Rewrites (x ++ s) (x ++ t)
  | [], _ => h
  | c :: x, hx => by
    simp only [List.mem_cons, not_or] at hx
    exact .char c _ _ (fun e => hx.1 e.symm) (h.plain_prefix hx.2)

/-! ## Quoted texts -/

/-- A complete sequence is read the same whatever follows. -/
theorem decodeRune_take {b : UInt8} {s : GoStr} {r w : Nat} (h : decodeRune (b :: s) = some (r, w)) (x : GoStr) :
    decodeRune ((b :: s).take w ++ x) = some (r, w) := by
  obtain ⟨h1, h2⟩ := decodeRune_width h
  unfold decodeRune at h
  dsimp only at h
  by_cases h0 : b < 0x80
  · rw [if_pos h0] at h
    cases h
    simp [decodeRune, h0]
  rw [if_neg h0] at h
  by_cases ha : inRange 0xC2 0xDF b = true
  · rw [if_pos ha] at h
    match s, h with
    | b1 :: s, h =>
      dsimp only at h
      split_ifs at h with h3
      simp only [Option.some.injEq, Prod.mk.injEq] at h
      obtain ⟨h4, rfl⟩ := h
      simp [decodeRune, h0, ha, h3, h4]
  rw [if_neg ha] at h
  by_cases hb : inRange 0xE0 0xEF b = true
  · rw [if_pos hb] at h
    match s, h with
    | b1 :: b2 :: s, h =>
      dsimp only at h
      by_cases h3 : (inRange (if (b == 0xE0) = true then 0xA0 else 0x80) (if (b == 0xED) = true then 0x9F else 0xBF) b1 && inRange 0x80 0xBF b2) = true
      · rw [if_pos h3] at h
        simp only [Option.some.injEq, Prod.mk.injEq] at h
        obtain ⟨h4, rfl⟩ := h
        simp only [List.take_succ_cons, List.take_zero, List.cons_append, List.nil_append]
        unfold decodeRune
        dsimp only
        rw [if_neg h0, if_neg ha, if_pos hb, if_pos h3, h4]
      · rw [if_neg h3] at h
        cases h
  rw [if_neg hb] at h
  by_cases hc : inRange 0xF0 0xF4 b = true
  · rw [if_pos hc] at h
    match s, h with
    | b1 :: b2 :: b3 :: s, h =>
      dsimp only at h
      by_cases h3 : (inRange (if (b == 0xF0) = true then 0x90 else 0x80) (if (b == 0xF4) = true then 0x8F else 0xBF) b1 && inRange 0x80 0xBF b2 && inRange 0x80 0xBF b3) = true
      · rw [if_pos h3] at h
        simp only [Option.some.injEq, Prod.mk.injEq] at h
        obtain ⟨h4, rfl⟩ := h
        simp only [List.take_succ_cons, List.take_zero, List.cons_append, List.nil_append]
        unfold decodeRune
        dsimp only
        rw [if_neg h0, if_neg ha, if_neg hb, if_pos hc, if_pos h3, h4]
      · rw [if_neg h3] at h
        cases h
  rw [if_neg hc] at h
  cases h

theorem bare_dec (c : UInt8) : (Bare c) ∨ c = 0x22 ∨ c = 0x5C ∨ c.toNat < 0x20 ∨ 0x7F ≤ c.toNat := by
  unfold Bare
  by_cases h1 : c = 0x22
  · exact .inr (.inl h1)
  by_cases h2 : c = 0x5C
  · exact .inr (.inr (.inl h2))
  by_cases h3 : c.toNat < 0x20
  · exact .inr (.inr (.inr (.inl h3)))
  by_cases h4 : 0x7F ≤ c.toNat
  · exact .inr (.inr (.inr (.inr h4)))
  exact .inl ⟨by omega, by omega, h1, h2⟩

/-- How a quoted text starts: at its end, with a character that is copied, with an escape, or with a printable rune outside
ASCII. -/
theorem quoteBody_head (isPrint : Nat → Bool) (s : GoStr) :
    s = [] ∨ (∃ c s', s = c :: s' ∧ Bare c) ∨ (∃ x, quoteBody isPrint s = 0x5C :: x) ∨
    ∃ v s' r, s = v ++ s' ∧ v ≠ [] ∧ (∀ b ∈ v, 0x80 ≤ b.toNat) ∧ (∀ x, quoteBody isPrint (v ++ x) = v ++ quoteBody isPrint x) ∧
      ∀ x, decodeRune (v ++ x) = some (r, v.length) := by
  cases s with
  | nil => exact .inl rfl
  | cons b s =>
    right
    rw [quoteBody_cons]
    cases hd : decodeRune (b :: s) with
    | none => exact .inr (.inl ⟨_, rfl⟩)
    | some p =>
      obtain ⟨r, w⟩ := p
      obtain ⟨hw1, hw2⟩ := decodeRune_width hd
      have hcases := escRune_cases isPrint r ((b :: s).take w)
      rcases decodeRune_spec hd with ⟨h1, h2, h3⟩ | ⟨h1, h2, h3, h4, h5, h6⟩
      · subst h3
        rcases hcases with ⟨h1, e⟩ | ⟨h4, h5, h6, e⟩ | ⟨h1, e⟩ | ⟨h1, e⟩ | ⟨h1, e⟩ | ⟨h1, e⟩ | ⟨h1, e⟩ |
          ⟨h1, e⟩ | ⟨h1, e⟩ | ⟨h1, e⟩ | ⟨h1, h2, e⟩ | ⟨h1, e⟩
        case inr.inl =>
          by_cases h7 : r = 0x7F
          · right; left
            dsimp only
            subst h7
            exact ⟨_, rfl⟩
          · refine .inl ⟨b, s, rfl, by omega, by omega, ?_, ?_⟩
            · rintro rfl; exact h4 h2
            · rintro rfl; exact h5 h2
        all_goals
          right; left
          dsimp only
          rw [e]
          exact ⟨_, rfl⟩
      · rcases hcases with ⟨h7, e⟩ | ⟨h4, h5, h7, e⟩ | ⟨h7, e⟩ | ⟨h7, e⟩ | ⟨h7, e⟩ | ⟨h7, e⟩ | ⟨h7, e⟩ |
          ⟨h7, e⟩ | ⟨h7, e⟩ | ⟨h7, e⟩ | ⟨h7, h8, e⟩ | ⟨h7, e⟩
        · omega
        · refine .inr (.inr ⟨(b :: s).take w, (b :: s).drop w, r, by simp, ?_, h6, ?_, ?_⟩)
          · intro h8
            have := congrArg List.length h8
            rw [List.length_take] at this
            simp at this
            omega
          · intro x
            have hdx := decodeRune_take hd x
            obtain ⟨k, rfl⟩ : ∃ k, w = k + 1 := ⟨w - 1, by omega⟩
            rw [List.take_succ_cons, List.cons_append] at hdx ⊢
            rw [quoteBody_cons, hdx]
            dsimp only
            have hl : (List.take k s).length = k := by rw [List.length_take]; simp at hw2; omega
            have e1 : (b :: (List.take k s ++ x)).take (k + 1) = b :: List.take k s := by
              rw [List.take_succ_cons, List.take_append_of_le_length (by omega), List.take_of_length_le (by omega)]
            have e2 : (b :: (List.take k s ++ x)).drop (k + 1) = x := by
              rw [List.drop_succ_cons]
              have := List.drop_left (l₁ := List.take k s) (l₂ := x)
              rwa [hl] at this
            rw [e1, e2]
            rw [List.take_succ_cons] at e
            rw [e]
          · intro x
            have hl : ((b :: s).take w).length = w := by rw [List.length_take]; omega
            rw [hl]
            exact decodeRune_take hd x
        all_goals
          first
          | omega
          | (right; left
             dsimp only
             rw [e]
             exact ⟨_, rfl⟩)

/-! ## Directives in quoted texts -/

theorem hexDigits_bracket : ∀ (k n : Nat), (0x5D : UInt8) ∉ hexDigits k n
  | 0, _ => by simp [hexDigits]
  | k + 1, n => by
    have : ∀ d : Fin 16, hexDigit d.1 ≠ 0x5D := by decide
    simp only [hexDigits, List.mem_append, List.mem_singleton, not_or]
    exact ⟨hexDigits_bracket k _, fun e => this ⟨n % 16, Nat.mod_lt n (by omega)⟩ e.symm⟩

theorem escRune_bracket {isPrint : Nat → Bool} {r : Nat} {bytes : GoStr} (h : (0x5D : UInt8) ∉ bytes) :
    (0x5D : UInt8) ∉ escRune isPrint r bytes := by
  rcases escRune_cases isPrint r bytes with ⟨h1, e⟩ | ⟨h1, h2, h3, e⟩ | ⟨h1, e⟩ | ⟨h1, e⟩ | ⟨h1, e⟩ | ⟨h1, e⟩ | ⟨h1, e⟩ |
      ⟨h1, e⟩ | ⟨h1, e⟩ | ⟨h1, e⟩ | ⟨h1, h2, e⟩ | ⟨h1, e⟩ <;> rw [e]
  · simpa using h
  · exact h
  · decide
  · decide
  · decide
  · decide
  · decide
  · decide
  · decide
  · simp [hexDigits_bracket]
  · simp [hexDigits_bracket]
  · simp [hexDigits_bracket]

theorem quoteLoop_bracket {isPrint : Nat → Bool} : ∀ (n : Nat) (s : GoStr), (0x5D : UInt8) ∉ s →
    (0x5D : UInt8) ∉ quoteLoop isPrint n s := by
  intro n
  induction n with
  | zero => intro s _; simp [quoteLoop]
  | succ n ih =>
    intro s h
    match s with
    | [] => simp [quoteLoop]
    | b :: s =>
      rw [quoteLoop]
      cases hd : decodeRune (b :: s) with
      | none =>
        dsimp only
        simp only [List.mem_append, not_or]
        exact ⟨⟨by decide, hexDigits_bracket _ _⟩, ih s (fun h' => h (by simp [h']))⟩
      | some p =>
        obtain ⟨r, w⟩ := p
        dsimp only
        simp only [List.mem_append, not_or]
        exact ⟨escRune_bracket (fun h' => h (List.mem_of_mem_take h')), ih _ (fun h' => h (List.mem_of_mem_drop h'))⟩

section
variable {isPrint : Nat → Bool} {post : GoStr}

/-- The rest of a text within a quoted string. -/
def inQuote (isPrint : Nat → Bool) (post s : GoStr) : GoStr := quoteBody isPrint s ++ 0x22 :: post

theorem inQuote_nil : inQuote isPrint post [] = 0x22 :: post := rfl

theorem inQuote_bare {c : UInt8} (h : Bare c) (s : GoStr) : inQuote isPrint post (c :: s) = c :: inQuote isPrint post s := by
  unfold inQuote
  rw [quoteBody_bare isPrint h]
  rfl

theorem inQuote_cons (s : GoStr) : ∃ b x, inQuote isPrint post s = b :: x := by
  unfold inQuote
  cases quoteBody isPrint s with
  | nil => exact ⟨_, _, rfl⟩
  | cons b x => exact ⟨_, _, rfl⟩

/-- Characters that need no escape are characters of the string. -/
theorem inQuote_inv {s x : GoStr} {b : UInt8} (h : inQuote isPrint post s = b :: x) (hb : Bare b) :
    ∃ s', s = b :: s' ∧ x = inQuote isPrint post s' := by
  rcases quoteBody_head isPrint s with rfl | ⟨c, s', rfl, hc⟩ | ⟨y, e⟩ | ⟨v, s', r, rfl, hv, h2, h3, h4⟩
  · cases h
    exact absurd rfl hb.2.2.1
  · rw [inQuote_bare hc] at h
    cases h
    exact ⟨s', rfl, rfl⟩
  · unfold inQuote at h
    rw [e] at h
    cases h
    exact absurd rfl hb.2.2.2
  · unfold inQuote at h
    rw [h3] at h
    cases v with
    | nil => exact absurd rfl hv
    | cons c v =>
      simp only [List.cons_append, List.cons.injEq] at h
      have := h2 c (List.mem_cons_self ..)
      have := hb.2.1
      rw [← h.1] at this
      omega

theorem flag_bare {c : UInt8} (h : isFlag c = true) : Bare c ∧ c ≠ 0x21 := by
  unfold isFlag at h
  simp only [Bool.or_eq_true, beq_iff_eq] at h
  rcases h with (((rfl | rfl) | rfl) | rfl) | rfl <;> exact ⟨by unfold Bare; decide, by decide⟩

theorem digit_bang {c : UInt8} (h : isDigit c = true) : c ≠ 0x21 := by
  rintro rfl
  cases h

theorem inQuote_flags : ∀ (s : GoStr), ∃ m s', s = m ++ s' ∧ m.head? ≠ some 0x21 ∧
    (inQuote isPrint post s).dropWhile isFlag = inQuote isPrint post s' ∧
    (inQuote isPrint post s').length ≤ (inQuote isPrint post s).length
  | [] => ⟨[], [], rfl, by simp, by rw [inQuote_nil]; rfl, le_rfl⟩
  | c :: s => by
    obtain ⟨b, x, e⟩ := inQuote_cons (isPrint := isPrint) (post := post) (c :: s)
    by_cases hb : isFlag b = true
    · obtain ⟨s', h1, rfl⟩ := inQuote_inv e (flag_bare hb).1
      cases h1
      obtain ⟨m, s', rfl, h2, h3, h4⟩ := inQuote_flags s
      refine ⟨c :: m, s', rfl, by simpa using (flag_bare hb).2, ?_, ?_⟩
      · rw [e, List.dropWhile_cons_of_pos hb, h3]
      · rw [e]; simp; omega
    · exact ⟨[], c :: s, rfl, by simp, by rw [e, List.dropWhile_cons_of_neg hb], le_rfl⟩

theorem inQuote_num : ∀ (s : GoStr) (n : Nat) (k : Bool), (parseNum (inQuote isPrint post s) n k).2.2 = [] ∨
    ∃ m s', s = m ++ s' ∧ m.head? ≠ some 0x21 ∧ (parseNum (inQuote isPrint post s) n k).2.2 = inQuote isPrint post s' ∧
    (inQuote isPrint post s').length ≤ (inQuote isPrint post s).length
  | [], n, k => .inr ⟨[], [], rfl, by simp, by rw [inQuote_nil]; rfl, le_rfl⟩
  | c :: s, n, k => by
    obtain ⟨b, x, e⟩ := inQuote_cons (isPrint := isPrint) (post := post) (c :: s)
    by_cases hb : isDigit b = true
    · obtain ⟨s', h1, rfl⟩ := inQuote_inv e (digitByte_facts hb).2.2.2.2.2
      cases h1
      rw [e, parseNum, if_pos hb]
      split_ifs with hn
      · exact .inl rfl
      · rcases inQuote_num s (n * 10 + (c.toNat - 48)) true with h | ⟨m, s', rfl, h2, h3, h4⟩
        · exact .inl h
        · refine .inr ⟨c :: m, s', rfl, by simpa using digit_bang hb, h3, ?_⟩
          simp; omega
    · refine .inr ⟨[], c :: s, rfl, by simp, ?_, le_rfl⟩
      rw [e, parseNum, if_neg hb]

theorem mem_split_first {x : UInt8} : ∀ {l : GoStr}, x ∈ l → ∃ a b, l = a ++ x :: b ∧ x ∉ a
  | c :: l, h => by
    by_cases hc : c = x
    · subst hc; exact ⟨[], l, rfl, by simp⟩
    · rcases List.mem_cons.1 h with h | h
      · exact absurd h.symm hc
      · obtain ⟨a, b, rfl, ha⟩ := mem_split_first h
        refine ⟨c :: a, b, rfl, ?_⟩
        simp only [List.mem_cons, not_or]
        exact ⟨fun e => hc e.symm, ha⟩

theorem argNumber_bracket (s : GoStr) : argNumber (0x5B :: s) =
    if s.length < 2 then (s, false, true)
    else if 0x5D ∈ s then
      (s.drop ((s.takeWhile (fun c => c != 0x5D)).length + 1),
        (parseNum (s.takeWhile (fun c => c != 0x5D)) 0 false).1 && (parseNum (s.takeWhile (fun c => c != 0x5D)) 0 false).2.2.isEmpty, true)
    else (s, false, true) := rfl

theorem fmtPrec_dot (pre : GoStr) (good after : Bool) (s : GoStr) : fmtPrec pre good after (0x2E :: s) =
    match (argNumber s).1 with
    | 0x2A :: s3 => fmtIndex (pre ++ b! "%!(BADPREC)") (good && !after && !(argNumber s).2.2) false s3
    | s2 => fmtIndex pre (good && !after && !(argNumber s).2.2) (argNumber s).2.1 (parseNum s2 0 false).2.2 := rfl

theorem inQuote_arg (hp : post ≠ []) (hb : (0x5D : UInt8) ∉ post) (s : GoStr) : ∃ m s' f k, s = m ++ s' ∧ m.head? ≠ some 0x21 ∧
    argNumber (inQuote isPrint post s) = (inQuote isPrint post s', f, k) ∧ (m = [] → f = false ∧ k = false) ∧
    (inQuote isPrint post s').length ≤ (inQuote isPrint post s).length := by
  obtain ⟨b, x, e⟩ := inQuote_cons (isPrint := isPrint) (post := post) s
  by_cases h : b = 0x5B
  · subst h
    obtain ⟨s1, rfl, rfl⟩ := inQuote_inv e (by unfold Bare; decide)
    rw [e]
    have hl : ¬ (inQuote isPrint post s1).length < 2 := by
      have : 0 < post.length := List.length_pos_iff.2 hp
      simp [inQuote]; omega
    rw [argNumber_bracket, if_neg hl]
    by_cases hm : (0x5D : UInt8) ∈ s1
    · obtain ⟨i, s2, rfl, hi⟩ := mem_split_first hm
      have hq : inQuote isPrint post (i ++ 0x5D :: s2) = quoteBody isPrint i ++ 0x5D :: inQuote isPrint post s2 := by
        unfold inQuote
        rw [quoteBody_append isPrint (by unfold Bare; decide) _ i s2 le_rfl]
        simp
      have hqi : (0x5D : UInt8) ∉ quoteBody isPrint i := quoteLoop_bracket _ _ hi
      have htake : (quoteBody isPrint i ++ 0x5D :: inQuote isPrint post s2).takeWhile (fun c => c != 0x5D) = quoteBody isPrint i := by
        rw [List.takeWhile_append_of_pos]
        · simp
        · intro c hc
          have : c ≠ 0x5D := fun e => hqi (e ▸ hc)
          simpa using this
      have hdrop : (quoteBody isPrint i ++ 0x5D :: inQuote isPrint post s2).drop ((quoteBody isPrint i).length + 1) = inQuote isPrint post s2 := by
        rw [List.drop_append]
        simp
      rw [hq, if_pos (by simp), htake, hdrop]
      refine ⟨0x5B :: (i ++ [0x5D]), s2, _, _, by simp, by simp, rfl, by simp, ?_⟩
      simp; omega
    · have : (0x5D : UInt8) ∉ inQuote isPrint post s1 := by
        unfold inQuote
        simp only [List.mem_append, List.mem_cons, not_or]
        exact ⟨quoteLoop_bracket _ _ hm, by decide, hb⟩
      rw [if_neg this]
      exact ⟨[0x5B], s1, _, _, rfl, by simp, rfl, by simp, by simp⟩
  · rw [e, argNumber_none h, ← e]
    exact ⟨[], s, _, _, rfl, by simp, rfl, fun _ => ⟨rfl, rfl⟩, le_rfl⟩

/-- How a directive ends, `m0` of which has been read already. -/
def EndsWith (isPrint : Nat → Bool) (post m0 s : GoStr) (d : Directive) : Prop :=
  ∃ m s' pre good, s = m ++ s' ∧ (m0 ++ m).head? ≠ some 0x21 ∧ Reports pre ∧ (m0 ++ m = [] → pre = [] ∧ good = true) ∧
    (inQuote isPrint post s').length ≤ (inQuote isPrint post s).length ∧
    (d = fmtVerb pre good (inQuote isPrint post s') ∨ d = fmtVerb pre good [])

theorem EndsWith.shift {m0 m s : GoStr} {d : Directive} (h : EndsWith isPrint post (m0 ++ m) s d)
    (hl : (inQuote isPrint post s).length ≤ (inQuote isPrint post (m ++ s)).length) : EndsWith isPrint post m0 (m ++ s) d := by
  obtain ⟨m', s', pre, good, rfl, h1, h2, h3, h4, h5⟩ := h
  refine ⟨m ++ m', s', pre, good, by simp, ?_, h2, ?_, by omega, h5⟩
  · rwa [← List.append_assoc]
  · rwa [← List.append_assoc]

theorem head_append {m0 m : GoStr} (h0 : m0.head? ≠ some 0x21) (h : m.head? ≠ some 0x21) : (m0 ++ m).head? ≠ some 0x21 := by
  cases m0 with
  | nil => exact h
  | cons c m0 => exact h0

variable (hp : post ≠ []) (hb : (0x5D : UInt8) ∉ post)
include hp hb

theorem fmtIndex_ends {m0 pre : GoStr} {good after : Bool} (h0 : m0.head? ≠ some 0x21) (hr : Reports pre) (hm : m0 = [] → pre = [] ∧ good = true)
    (s : GoStr) : EndsWith isPrint post m0 s (fmtIndex pre good after (inQuote isPrint post s)) ∧
      EndsWith isPrint post m0 s (fmtIndex pre good after []) := by
  refine ⟨?_, ⟨[], s, pre, good, rfl, by simpa using h0, hr, by simpa using hm, le_rfl, .inr ?_⟩⟩
  · unfold fmtIndex
    split_ifs with ha
    · exact ⟨[], s, pre, good, rfl, by simpa using h0, hr, by simpa using hm, le_rfl, .inl rfl⟩
    · obtain ⟨m, s', f, k, rfl, h1, h2, h3, h4⟩ := inQuote_arg (isPrint := isPrint) hp hb s
      rw [h2]
      refine ⟨m, s', pre, good && !k, rfl, head_append h0 h1, hr, ?_, h4, .inl rfl⟩
      intro he
      obtain ⟨rfl, rfl⟩ := List.append_eq_nil_iff.1 he
      simp [hm rfl, h3 rfl]
  · unfold fmtIndex
    simp [argNumber]

theorem fmtPrec_ends {m0 pre : GoStr} {good after : Bool} (h0 : m0.head? ≠ some 0x21) (hr : pre = [] ∨ pre = b! "%!(BADWIDTH)")
    (hm : m0 = [] → pre = [] ∧ good = true) (s : GoStr) : EndsWith isPrint post m0 s (fmtPrec pre good after (inQuote isPrint post s)) ∧
      EndsWith isPrint post m0 s (fmtPrec pre good after []) := by
  have hr' : Reports pre := by rcases hr with rfl | rfl <;> simp [Reports]
  refine ⟨?_, ?_⟩
  · obtain ⟨b, x, e⟩ := inQuote_cons (isPrint := isPrint) (post := post) s
    by_cases h : b = 0x2E
    · subst h
      obtain ⟨s1, rfl, rfl⟩ := inQuote_inv e (by unfold Bare; decide)
      rw [e]
      rw [fmtPrec_dot]
      obtain ⟨m, s', f, k, rfl, h1, h2, h3, h4⟩ := inQuote_arg (isPrint := isPrint) hp hb s1
      rw [h2]
      dsimp only
      have hl : (inQuote isPrint post s').length ≤ (inQuote isPrint post ((0x2E :: m) ++ s')).length := by
        rw [List.cons_append, inQuote_bare (by unfold Bare; decide)]; simp; omega
      have hh : (m0 ++ (0x2E :: m)).head? ≠ some 0x21 := head_append h0 (by simp)
      split
      · rename_i s3 e3
        obtain ⟨s4, rfl, rfl⟩ := inQuote_inv e3 (by unfold Bare; decide)
        have e5 : 0x2E :: (m ++ 0x2A :: s4) = (0x2E :: (m ++ [0x2A])) ++ s4 := by simp
        have e6 : inQuote isPrint post (0x2A :: s4) = 0x2A :: inQuote isPrint post s4 := inQuote_bare (by unfold Bare; decide) _
        rw [e5]
        refine EndsWith.shift (fmtIndex_ends hp hb (head_append h0 (by simp)) ?_ (by simp) s4).1 ?_
        · rcases hr with rfl | rfl <;> simp [Reports]
        · have := hl
          rw [e6] at this
          simp only [List.append_assoc, List.cons_append, List.nil_append] at this ⊢
          simp at this ⊢
          omega
      · rename_i hns
        have e5 : 0x2E :: (m ++ s') = (0x2E :: m) ++ s' := rfl
        rw [e5]
        refine EndsWith.shift ?_ hl
        rcases inQuote_num (isPrint := isPrint) (post := post) s' 0 false with h | ⟨m2, s2, rfl, g1, g2, g3⟩
        · rw [h]
          exact (fmtIndex_ends hp hb hh hr' (by simp) s').2
        · rw [g2]
          exact EndsWith.shift (fmtIndex_ends hp hb (head_append hh g1) hr' (by simp) s2).1 g3
    · have : fmtPrec pre good after (inQuote isPrint post s) = fmtIndex pre good after (inQuote isPrint post s) := by
        rw [e]
        unfold fmtPrec
        split
        · rename_i heq; simp only [List.cons.injEq] at heq; exact absurd heq.1 h
        · rfl
      rw [this]
      exact (fmtIndex_ends hp hb h0 hr' hm s).1
  · exact (fmtIndex_ends hp hb h0 hr' hm s).2

theorem fmtWidth_ends {m0 : GoStr} {good after : Bool} (h0 : m0.head? ≠ some 0x21) (hm : m0 = [] → good = true ∧ after = false) (s : GoStr) :
    EndsWith isPrint post m0 s (fmtWidth good after (inQuote isPrint post s)) := by
  obtain ⟨b, x, e⟩ := inQuote_cons (isPrint := isPrint) (post := post) s
  by_cases h : b = 0x2A
  · subst h
    obtain ⟨s1, rfl, rfl⟩ := inQuote_inv e (by unfold Bare; decide)
    rw [e]
    unfold fmtWidth
    dsimp only
    refine EndsWith.shift (m := [0x2A]) (fmtPrec_ends hp hb (head_append h0 (by simp)) (.inr rfl) (by simp) s1).1 ?_
    show _ ≤ (inQuote isPrint post (0x2A :: s1)).length
    rw [e]; simp
  · have : fmtWidth good after (inQuote isPrint post s) = fmtPrec [] (good && !(after && (parseNum (inQuote isPrint post s) 0 false).1)) after
        (parseNum (inQuote isPrint post s) 0 false).2.2 := by
      rw [e]
      unfold fmtWidth
      split
      · rename_i heq; simp only [List.cons.injEq] at heq; exact absurd heq.1 h
      · rfl
    rw [this]
    have hg : ∀ k, m0 = [] → (([] : GoStr) = [] ∧ (good && !(after && k)) = true) := by
      intro k he
      simp [hm he]
    rcases inQuote_num (isPrint := isPrint) (post := post) s 0 false with h | ⟨m2, s2, rfl, g1, g2, g3⟩
    · rw [h]
      exact (fmtPrec_ends hp hb h0 (.inl rfl) (hg _) s).2
    · rw [g2]
      refine EndsWith.shift (fmtPrec_ends hp hb (head_append h0 g1) (.inl rfl) ?_ s2).1 g3
      intro he
      exact hg _ (List.append_eq_nil_iff.1 he).1

/-- A directive of a quoted text. -/
theorem fmtDirective_ends (s : GoStr) : EndsWith isPrint post [] s (fmtDirective (inQuote isPrint post s)) := by
  obtain ⟨m, s', rfl, h1, h2, h3⟩ := inQuote_flags (isPrint := isPrint) (post := post) s
  unfold fmtDirective
  dsimp only
  rw [h2]
  obtain ⟨m2, s2, f, k, rfl, g1, g2, g3, g4⟩ := inQuote_arg (isPrint := isPrint) hp hb s'
  rw [g2]
  refine EndsWith.shift (EndsWith.shift (m := m2) (fmtWidth_ends hp hb (head_append h1 g1) ?_ s2) g4) h3
  intro he
  obtain ⟨-, rfl⟩ := List.append_eq_nil_iff.1 he
  simp [g3 rfl]
end

/-! ## What becomes of the text -/

/-- Text that stays within a string literal. -/
def Inside (a : GoStr) : Prop := ∀ out acc semi, ∃ acc', lexRun ⟨out, .str acc, semi⟩ a = ⟨out, .str acc', semi⟩

theorem Inside.append {a b : GoStr} (ha : Inside a) (hb : Inside b) : Inside (a ++ b) := by
  intro out acc semi
  obtain ⟨acc1, h1⟩ := ha out acc semi
  obtain ⟨acc2, h2⟩ := hb out acc1 semi
  exact ⟨acc2, by rw [lexRun_append, h1, h2]⟩

theorem inside_raw {a : GoStr} (h : ∀ c ∈ a, c ≠ 0x22 ∧ c ≠ 0x5C ∧ c ≠ 0x0A) : Inside a :=
  fun _ acc _ => ⟨acc ++ a, lexRun_raw a acc h⟩

theorem inside_quoteBody (isPrint : Nat → Bool) (s : GoStr) : Inside (quoteBody isPrint s) :=
  fun _ acc _ => ⟨acc ++ s, lexRun_quoteLoop _ _ _ le_rfl⟩

theorem Bare.raw {c : UInt8} (h : Bare c) : c ≠ 0x22 ∧ c ≠ 0x5C ∧ c ≠ 0x0A := by
  refine ⟨h.2.2.1, h.2.2.2, ?_⟩
  rintro rfl
  have := h.1
  simp at this

theorem Reports.bare {pre : GoStr} (h : Reports pre) : ∀ c ∈ pre ++ b! "%!", Bare c := by
  have hd : ∀ c : UInt8, (0x20 ≤ c.toNat && decide (c.toNat < 0x7F) && c != 0x22 && c != 0x5C) = true → Bare c := by
    intro c hc
    simp only [Bool.and_eq_true, decide_eq_true_eq, bne_iff_ne] at hc
    exact ⟨hc.1.1.1, hc.1.1.2, hc.1.2, hc.2⟩
  intro c hc
  apply hd
  revert c
  rw [← List.all_eq_true]
  rcases h with rfl | rfl | rfl | rfl <;> decide

/-- What becomes of a text within a quoted string, the rest of which is `s`. -/
inductive Becomes (isPrint : Nat → Bool) (post s : GoStr) : GoStr → Prop where
  /-- another string -/
  | other (t) : Rewrites s t → Becomes isPrint post s (inQuote isPrint post t)
  /-- an escape that does not exist -/
  | escape (a x) : Inside a → Becomes isPrint post s (a ++ 0x5C :: 0x28 :: x)
  /-- the literal looks like a function -/
  | call (a w) : Inside a → (w = b! "(MISSING)" ∨ w = b! "(BADINDEX)") → Becomes isPrint post s (a ++ 0x22 :: (w ++ post))
  /-- the literal does not end -/
  | open (a) : Inside a → Becomes isPrint post s a

section
variable {isPrint : Nat → Bool} {post : GoStr}

theorem quoteBody_raw {a : GoStr} (h : ∀ c ∈ a, Bare c) (x : GoStr) : quoteBody isPrint (a ++ x) = a ++ quoteBody isPrint x :=
  quoteBody_bares isPrint x a h

theorem missing_bare {w : GoStr} (h : w = b! "(MISSING)" ∨ w = b! "(BADINDEX)") : ∀ c ∈ w, Bare c := by
  have hd : ∀ c : UInt8, (0x20 ≤ c.toNat && decide (c.toNat < 0x7F) && c != 0x22 && c != 0x5C) = true → Bare c := by
    intro c hc
    simp only [Bool.and_eq_true, decide_eq_true_eq, bne_iff_ne] at hc
    exact ⟨hc.1.1.1, hc.1.1.2, hc.1.2, hc.2⟩
  intro c hc
  apply hd
  revert c
  rw [← List.all_eq_true]
  rcases h with rfl | rfl <;> decide

/-- The verb, if it is not `%`. -/
theorem fmtVerb_other {c : UInt8} {v x : GoStr} {r : Nat} (hc : c ≠ 0x25) (h : decodeRune (c :: v ++ x) = some (r, v.length + 1)) (pre : GoStr) (good : Bool) :
    ∃ w, (w = b! "(MISSING)" ∨ w = b! "(BADINDEX)") ∧ (good = true → w = b! "(MISSING)") ∧
      fmtVerb pre good (c :: v ++ x) = (pre ++ b! "%!" ++ (c :: v) ++ w, x) := by
  refine ⟨if good then b! "(MISSING)" else b! "(BADINDEX)", by split <;> simp, fun h => by simp [h], ?_⟩
  unfold fmtVerb
  rw [List.cons_append] at h ⊢
  dsimp only
  rw [if_neg hc, h]
  dsimp only
  rw [List.take_succ_cons, List.drop_succ_cons]
  simp

/-- A directive of a quoted text, and the text after it. -/
theorem directive_becomes (hp : post ≠ []) (hb : (0x5D : UInt8) ∉ post) (s : GoStr) :
    (∃ d o s', 0x25 :: s = d ++ s' ∧ Turns d o ∧ Inside o ∧ (∀ x, quoteBody isPrint (o ++ x) = o ++ quoteBody isPrint x) ∧
      fmtDirective (inQuote isPrint post s) = (o, inQuote isPrint post s') ∧
      (inQuote isPrint post s').length ≤ (inQuote isPrint post s).length) ∨
    (∃ a x, Inside a ∧ (fmtDirective (inQuote isPrint post s)).1 = a ++ 0x5C :: 0x28 :: x) ∨
    (∃ a w, Inside a ∧ (w = b! "(MISSING)" ∨ w = b! "(BADINDEX)") ∧ fmtDirective (inQuote isPrint post s) = (a ++ 0x22 :: w, post)) ∨
    ∃ a, Inside a ∧ fmtDirective (inQuote isPrint post s) = (a, []) := by
  obtain ⟨m, s', pre, good, rfl, h1, h2, h3, h4, h5⟩ := fmtDirective_ends (isPrint := isPrint) hp hb s
  rw [List.nil_append] at h1 h3
  have hpre := h2.bare
  have hin : Inside (pre ++ b! "%!") := inside_raw fun c hc => (hpre c hc).raw
  rcases h5 with h5 | h5
  · rw [h5]
    rcases quoteBody_head isPrint s' with rfl | ⟨c, s'', rfl, hc⟩ | ⟨y, e⟩ | ⟨v, s'', r, rfl, g1, g2, g3, g4⟩
    · right; right; left
      have hd : decodeRune ((0x22 :: []) ++ post) = some (0x22, ([] : GoStr).length + 1) := by simp [decodeRune]
      obtain ⟨w, hw, -, e⟩ := fmtVerb_other (by decide) hd pre good
      refine ⟨pre ++ b! "%!", w, hin, hw, ?_⟩
      rw [inQuote_nil]
      simpa using e
    · left
      rw [inQuote_bare hc] at h4 ⊢
      by_cases hcp : c = 0x25
      · subst hcp
        refine ⟨0x25 :: (m ++ [0x25]), pre ++ [0x25], s'', by simp, .percent m pre h1 h2 (fun he => (h3 he).1), ?_, ?_, ?_, ?_⟩
        · exact inside_raw fun c hc => by
            rcases List.mem_append.1 hc with hc | hc
            · exact (hpre c (by simp [hc])).raw
            · rw [List.mem_singleton] at hc; subst hc; decide
        · exact fun x => quoteBody_raw (fun c hc => by
            rcases List.mem_append.1 hc with hc | hc
            · exact hpre c (by simp [hc])
            · rw [List.mem_singleton] at hc; subst hc; unfold Bare; decide) x
        · rfl
        · simp at h4; omega
      · have hd : decodeRune ((c :: []) ++ inQuote isPrint post s'') = some (c.toNat, ([] : GoStr).length + 1) := by
          have : c < 0x80 := by rw [UInt8.lt_iff_toNat_lt]; have := hc.2.1; show c.toNat < 128; omega
          simp [decodeRune, this]
        obtain ⟨w, hw, hw', e⟩ := fmtVerb_other hcp hd pre good
        have hbare : ∀ b ∈ pre ++ b! "%!" ++ [c] ++ w, Bare b := by
          intro b hb
          simp only [List.mem_append] at hb
          rcases hb with ((hb | hb) | hb) | hb
          · exact hpre b (by simp [hb])
          · exact hpre b (List.mem_append.2 (.inr hb))
          · rw [List.mem_singleton] at hb; subst hb; exact hc
          · exact missing_bare hw b hb
        refine ⟨0x25 :: (m ++ [c]), pre ++ b! "%!" ++ [c] ++ w, s'', by simp,
          .verb m pre [c] w h1 h2 (by simp) (by simpa using fun e => hcp e.symm) (by simp) hw (fun he => ⟨(h3 he).1, hw' (h3 he).2⟩), ?_, ?_, e, ?_⟩
        · exact inside_raw fun b hb => (hbare b hb).raw
        · exact fun x => quoteBody_raw hbare x
        · simp at h4; omega
    · right; left
      have hd : decodeRune ((0x5C :: []) ++ (y ++ 0x22 :: post)) = some (0x5C, ([] : GoStr).length + 1) := by simp [decodeRune]
      obtain ⟨w, hw, -, e'⟩ := fmtVerb_other (by decide) hd pre good
      have : inQuote isPrint post s' = (0x5C :: []) ++ (y ++ 0x22 :: post) := by unfold inQuote; rw [e]; simp
      rw [this, e']
      rcases hw with rfl | rfl
      · exact ⟨pre ++ b! "%!", b! "MISSING)", hin, by simp⟩
      · exact ⟨pre ++ b! "%!", b! "BADINDEX)", hin, by simp⟩
    · left
      cases v with
      | nil => exact absurd rfl g1
      | cons c v =>
        have hne : ∀ b ∈ c :: v, b ≠ 0x25 ∧ b ≠ 0x21 ∧ b ≠ 0x22 ∧ b ≠ 0x5C ∧ b ≠ 0x0A := by
          intro b hb
          have := g2 b hb
          refine ⟨?_, ?_, ?_, ?_, ?_⟩ <;> (rintro rfl; simp at this)
        have hq : inQuote isPrint post (c :: v ++ s'') = c :: v ++ inQuote isPrint post s'' := by
          unfold inQuote; rw [g3]; simp
        obtain ⟨w, hw, hw', e⟩ := fmtVerb_other (hne c (List.mem_cons_self ..)).1 (g4 (inQuote isPrint post s'')) pre good
        rw [hq]
        refine ⟨0x25 :: (m ++ (c :: v)), pre ++ b! "%!" ++ (c :: v) ++ w, s'', by simp,
          .verb m pre (c :: v) w h1 h2 (by simp) (fun h => (hne _ h).1 rfl) ?_ hw (fun he => ⟨(h3 he).1, hw' (h3 he).2⟩), ?_, ?_, e, ?_⟩
        · intro h
          simp only [List.head?_cons, Option.some.injEq] at h
          exact absurd h (hne c (List.mem_cons_self ..)).2.1
        · exact (hin.append (inside_raw fun b hb => (hne b hb).2.2)).append (inside_raw fun b hb => (missing_bare hw b hb).raw)
        · intro x
          have e1 : pre ++ b! "%!" ++ (c :: v) ++ w ++ x = (pre ++ b! "%!") ++ ((c :: v) ++ (w ++ x)) := by simp
          rw [e1, quoteBody_raw hpre, g3, quoteBody_raw (missing_bare hw)]
          simp
        · rw [hq] at h4
          simp at h4 ⊢
          omega
  · right; right; right
    rw [h5]
    refine ⟨pre ++ b! "%!(NOVERB)", ?_, rfl⟩
    have e : pre ++ b! "%!(NOVERB)" = (pre ++ b! "%!") ++ b! "(NOVERB)" := by simp
    rw [e]
    exact hin.append (inside_raw (by decide))

/-- What `Fprintf` makes of the text within a quoted string and after it. -/
theorem fmtLoop_becomes (hp : post ≠ []) (hb : (0x5D : UInt8) ∉ post) (hq : (0x25 : UInt8) ∉ post) : ∀ (n : Nat) (s : GoStr), s.length ≤ n →
    ∀ k, (inQuote isPrint post s).length ≤ k → Becomes isPrint post s (fmtLoop k (inQuote isPrint post s)) := by
  intro n
  induction n with
  | zero =>
    intro s hl k hk
    have : s = [] := List.length_eq_zero_iff.1 (by omega)
    subst this
    rw [fmtLoop_plain _ _ hk (by rw [inQuote_nil]; simp [hq])]
    exact .other [] .nil
  | succ n ih =>
    intro s hl k hk
    by_cases hs : (0x25 : UInt8) ∈ s
    · obtain ⟨p, s1, rfl, hpl⟩ := mem_split_first hs
      have hqp : (0x25 : UInt8) ∉ quoteBody isPrint p := quoteLoop_plain _ _ hpl
      have e1 : inQuote isPrint post (p ++ 0x25 :: s1) = quoteBody isPrint p ++ 0x25 :: inQuote isPrint post s1 := by
        unfold inQuote
        rw [quoteBody_append isPrint (by unfold Bare; decide) _ p s1 le_rfl]
        simp
      rw [e1] at hk ⊢
      rw [fmtLoop_append _ _ _ (by simp at hk; omega) hqp]
      obtain ⟨j, hj⟩ : ∃ j, k - (quoteBody isPrint p).length = j + 1 := ⟨k - (quoteBody isPrint p).length - 1, by simp at hk; omega⟩
      rw [hj, fmtLoop, if_pos rfl]
      dsimp only
      have hip := inside_quoteBody isPrint p
      rcases directive_becomes (isPrint := isPrint) hp hb s1 with ⟨d, o, s', h1, h2, h3, h4, h5, h6⟩ | ⟨a, x, h1, h2⟩ | ⟨a, w, h1, h2, h3⟩ | ⟨a, h1, h2⟩
      · rw [h5]
        dsimp only
        have hlen : s'.length ≤ n := by
          obtain ⟨c, d', rfl⟩ := h2.shape
          have := congrArg List.length h1
          simp at this hl
          omega
        have hrec := ih s' hlen j (by simp at hk hj; omega)
        generalize fmtLoop j (inQuote isPrint post s') = T at hrec ⊢
        cases hrec with
        | other t ht =>
          have e2 : quoteBody isPrint p ++ (o ++ inQuote isPrint post t) = inQuote isPrint post (p ++ (o ++ t)) := by
            obtain ⟨o', rfl⟩ : ∃ o', o = 0x25 :: o' := by
              rcases h2.shape' with rfl | ⟨o', rfl⟩ <;> exact ⟨_, rfl⟩
            have e3 := quoteBody_append isPrint (x := 0x25) (by unfold Bare; decide) _ p (o' ++ t) le_rfl
            have e4 := h4 t
            rw [List.cons_append, quoteBody_bare isPrint (by unfold Bare; decide)] at e4
            simp only [List.cons_append, List.cons.injEq, true_and] at e4
            unfold inQuote
            rw [show p ++ (0x25 :: o' ++ t) = p ++ 0x25 :: (o' ++ t) from rfl, e3, e4]
            simp
          rw [e2, h1]
          exact .other _ ((Rewrites.turn d o s' t h2 ht).plain_prefix hpl)
        | escape a x ha =>
          have := Becomes.escape (isPrint := isPrint) (post := post) (s := p ++ 0x25 :: s1) _ x ((hip.append h3).append ha)
          simpa using this
        | call a w ha hw =>
          have := Becomes.call (isPrint := isPrint) (post := post) (s := p ++ 0x25 :: s1) _ w ((hip.append h3).append ha) hw
          simpa using this
        | «open» a ha => exact .open _ (hip.append (h3.append ha))
      · rw [h2]
        have := Becomes.escape (isPrint := isPrint) (post := post) (s := p ++ 0x25 :: s1) _
          (x ++ fmtLoop j (fmtDirective (inQuote isPrint post s1)).2) (hip.append h1)
        simpa using this
      · rw [h3]
        dsimp only
        rw [fmtLoop_plain j post ?_ hq]
        · have := Becomes.call (isPrint := isPrint) (post := post) (s := p ++ 0x25 :: s1) _ w (hip.append h1) h2
          simpa using this
        · have : post.length ≤ (inQuote isPrint post s1).length := by simp [inQuote]; omega
          simp at hk hj
          omega
      · rw [h2]
        dsimp only
        have : fmtLoop j [] = [] := by cases j <;> rfl
        rw [this, List.append_nil]
        exact .open _ (hip.append h1)
    · rw [fmtLoop_plain _ _ hk]
      · exact .other s (Rewrites.same hs)
      · unfold inQuote
        simp only [List.mem_append, List.mem_cons, not_or]
        exact ⟨quoteLoop_plain _ _ hs, by decide, hq⟩

/-- What `Fprintf` makes of a text with a quoted string. -/
theorem fmtText_becomes {pre : GoStr} (hpre : (0x25 : UInt8) ∉ pre) (hp : post ≠ []) (hb : (0x5D : UInt8) ∉ post) (hq : (0x25 : UInt8) ∉ post) (s : GoStr) :
    ∃ x, Becomes isPrint post s x ∧ fmtText (pre ++ goQuote isPrint s ++ post) = pre ++ 0x22 :: x := by
  have e : pre ++ goQuote isPrint s ++ post = (pre ++ [0x22]) ++ inQuote isPrint post s := by
    rw [goQuote_body]
    unfold inQuote
    simp
  refine ⟨_, fmtLoop_becomes hp hb hq _ s le_rfl _ le_rfl, ?_⟩
  unfold fmtText
  rw [e, fmtLoop_append _ _ _ (by simp) (by simpa using hpre)]
  have hl : (pre ++ [0x22] ++ inQuote isPrint post s).length - (pre ++ [0x22]).length = (inQuote isPrint post s).length := by simp; omega
  rw [hl]
  simp
end

end Jsval
