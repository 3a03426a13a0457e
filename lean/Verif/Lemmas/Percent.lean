import Verif.Lemmas.GenText
/-!
# Texts with `%`
-/
namespace Jsval
open Go

theorem inRange_ascii {lo hi x : UInt8} (hx : x.toNat < 0x80) (hlo : 0x80 ≤ lo.toNat) : inRange lo hi x = false := by
  rw [Bool.eq_false_iff, Ne, inRange_iff]
  omega

/-- An ASCII byte ends what came before it. -/
theorem decodeRune_append {b x : UInt8} {u v : GoStr} (hx : x.toNat < 0x80) :
    decodeRune (b :: u ++ x :: v) = decodeRune (b :: u) := by
  have hlo : ∀ (p : Prop) [Decidable p] (a b : UInt8), 0x80 ≤ a.toNat → 0x80 ≤ b.toNat → 0x80 ≤ (if p then a else b).toNat := by
    intro p _ a b ha hb; split_ifs <;> assumption
  have h1 := inRange_ascii (lo := 0x80) (hi := 0xBF) hx (by decide)
  have h2 : ∀ hi, inRange (if b = 0xE0 then 0xA0 else 0x80) hi x = false :=
    fun hi => inRange_ascii hx (hlo _ _ _ (by decide) (by decide))
  have h3 : ∀ hi, inRange (if b = 0xF0 then 0x90 else 0x80) hi x = false :=
    fun hi => inRange_ascii hx (hlo _ _ _ (by decide) (by decide))
  match u with
  | [] => rcases v with _ | ⟨v1, _ | ⟨v2, v⟩⟩ <;> simp [decodeRune, h1, h2, h3]
  | [b1] => rcases v with _ | ⟨v1, v⟩ <;> simp [decodeRune, h1, h2, h3]
  | [b1, b2] => simp [decodeRune, h1, h2, h3]
  | b1 :: b2 :: b3 :: u => simp [decodeRune]

theorem decodeRune_width {b : UInt8} {s : GoStr} {r w : Nat} (h : decodeRune (b :: s) = some (r, w)) : 1 ≤ w ∧ w ≤ (b :: s).length := by
  rcases decodeRune_spec h with ⟨_, _, rfl⟩ | ⟨_, _, h1, h2, _⟩
  · simp
  · exact ⟨by omega, h2⟩

/-- More fuel than the text is long makes no difference. -/
theorem quoteLoop_fuel (isPrint : Nat → Bool) : ∀ (n : Nat) (s : GoStr), s.length ≤ n → quoteLoop isPrint n s = quoteLoop isPrint s.length s := by
  intro n
  induction n using Nat.strong_induction_on with
  | _ n ih =>
    intro s h
    match n, s, h with
    | 0, [], _ => rfl
    | n + 1, [], _ => rfl
    | n + 1, b :: s, h =>
      have hl : s.length ≤ n := by simpa using h
      show quoteLoop isPrint (n + 1) (b :: s) = quoteLoop isPrint (s.length + 1) (b :: s)
      rw [quoteLoop, quoteLoop]
      cases hd : decodeRune (b :: s) with
      | none => simp only []; rw [ih n (by omega) s hl]
      | some p =>
        obtain ⟨r, w⟩ := p
        obtain ⟨hw, hw'⟩ := decodeRune_width hd
        have hdl : ((b :: s).drop w).length ≤ s.length := by simp; omega
        simp only []
        rw [ih n (by omega) _ (by omega), ← ih s.length (by omega) ((b :: s).drop w) hdl]

/-- The inside of `strconv.Quote(s)`. -/
def quoteBody (isPrint : Nat → Bool) (s : GoStr) : GoStr := quoteLoop isPrint s.length s

theorem quoteBody_cons (isPrint : Nat → Bool) (b : UInt8) (s : GoStr) : quoteBody isPrint (b :: s) =
    match decodeRune (b :: s) with
    | none => b! "\\x" ++ hexDigits 2 b.toNat ++ quoteBody isPrint s
    | some (r, w) => escRune isPrint r ((b :: s).take w) ++ quoteBody isPrint ((b :: s).drop w) := by
  show quoteLoop isPrint (s.length + 1) (b :: s) = _
  rw [quoteLoop]
  cases hd : decodeRune (b :: s) with
  | none => rfl
  | some p =>
    obtain ⟨r, w⟩ := p
    obtain ⟨hw, hw'⟩ := decodeRune_width hd
    simp only [quoteBody]
    rw [quoteLoop_fuel isPrint s.length _ (by simp; omega)]

/-- A printable ASCII character that needs no escape. -/
def Bare (c : UInt8) : Prop := 0x20 ≤ c.toNat ∧ c.toNat < 0x7F ∧ c ≠ 0x22 ∧ c ≠ 0x5C

/-- Such a character is copied, and splits the text. -/
theorem quoteBody_append (isPrint : Nat → Bool) {x : UInt8} (hx : Bare x) : ∀ (n : Nat) (u v : GoStr), u.length ≤ n →
    quoteBody isPrint (u ++ x :: v) = quoteBody isPrint u ++ x :: quoteBody isPrint v := by
  intro n
  induction n with
  | zero =>
    intro u v h
    have : u = [] := List.length_eq_zero_iff.1 (by omega)
    subst this
    obtain ⟨h1, h2, h3, h4⟩ := hx
    have h3' : x.toNat ≠ 0x22 := fun e => h3 (u8_ext e)
    have h4' : x.toNat ≠ 0x5C := fun e => h4 (u8_ext e)
    have hd : decodeRune (x :: v) = some (x.toNat, 1) := by
      unfold decodeRune
      exact if_pos (by rw [UInt8.lt_iff_toNat_lt]; show _ < 128; omega)
    rw [List.nil_append, quoteBody_cons, hd]
    simp [escRune, h3', h4', h1, h2, quoteBody, quoteLoop]
  | succ n ih =>
    intro u v h
    match u with
    | [] => exact ih [] v (by simp)
    | b :: u =>
      have hl : u.length ≤ n := by simpa using h
      rw [List.cons_append, quoteBody_cons, ← List.cons_append, decodeRune_append (by have := hx.2.1; omega), quoteBody_cons]
      cases hd : decodeRune (b :: u) with
      | none => simp only [List.append_assoc]; rw [ih u v hl]
      | some p =>
        obtain ⟨r, w⟩ := p
        obtain ⟨hw, hw'⟩ := decodeRune_width hd
        simp only [List.append_assoc]
        rw [List.take_append_of_le_length hw', List.drop_append_of_le_length hw', ih _ v (by simp at hw' ⊢; omega)]

theorem quoteBody_bare (isPrint : Nat → Bool) {x : UInt8} (hx : Bare x) (v : GoStr) :
    quoteBody isPrint (x :: v) = x :: quoteBody isPrint v := quoteBody_append isPrint hx 0 [] v le_rfl

theorem quoteBody_bares (isPrint : Nat → Bool) (v : GoStr) : ∀ (m : GoStr), (∀ x ∈ m, Bare x) →
    quoteBody isPrint (m ++ v) = m ++ quoteBody isPrint v
  | [], _ => rfl
  | x :: m, h => by
    rw [List.cons_append, quoteBody_bare isPrint (h x (List.mem_cons_self ..)),
      quoteBody_bares isPrint v m (fun y hy => h y (List.mem_cons_of_mem _ hy))]
    rfl

/-- A text starting with such a character keeps apart from what is before it. -/
theorem quoteBody_split (isPrint : Nat → Bool) {x : UInt8} {m : GoStr} (hm : ∀ y ∈ x :: m, Bare y) (u v : GoStr) :
    quoteBody isPrint (u ++ (x :: m ++ v)) = quoteBody isPrint u ++ (x :: m ++ quoteBody isPrint v) := by
  rw [List.cons_append, quoteBody_append isPrint (hm x (List.mem_cons_self ..)) _ u _ le_rfl,
    quoteBody_bares isPrint v m (fun y hy => hm y (List.mem_cons_of_mem _ hy))]
  rfl

theorem goQuote_body (isPrint : Nat → Bool) (s : GoStr) : goQuote isPrint s = 0x22 :: quoteBody isPrint s ++ [0x22] := rfl

theorem fmtLoop_append : ∀ (u s : GoStr) (n : Nat), u.length ≤ n → (0x25 : UInt8) ∉ u → fmtLoop n (u ++ s) = u ++ fmtLoop (n - u.length) s
  | [], _, _, _, _ => rfl
  | c :: u, s, 0, h, _ => by simp at h
  | c :: u, s, n + 1, h, hu => by
    have hc : c ≠ 0x25 := fun e => hu (by simp [e])
    rw [List.cons_append, fmtLoop, if_neg hc, fmtLoop_append u s n (by simpa using h) (fun h' => hu (by simp [h']))]
    simp

theorem letter_facts {c : UInt8} (h : isLetter c = true) :
    isFlag c = false ∧ c ≠ 0x5B ∧ c ≠ 0x2A ∧ isDigit c = false ∧ c ≠ 0x2E ∧ c ≠ 0x25 ∧ c < 0x80 ∧ Bare c := by
  have : ∀ n : Fin 256, isLetter (UInt8.ofNat n.1) = true →
      isFlag (UInt8.ofNat n.1) = false ∧ UInt8.ofNat n.1 ≠ 0x5B ∧ UInt8.ofNat n.1 ≠ 0x2A ∧ isDigit (UInt8.ofNat n.1) = false ∧
      UInt8.ofNat n.1 ≠ 0x2E ∧ UInt8.ofNat n.1 ≠ 0x25 ∧ UInt8.ofNat n.1 < 0x80 ∧
      (0x20 ≤ (UInt8.ofNat n.1).toNat ∧ (UInt8.ofNat n.1).toNat < 0x7F ∧ UInt8.ofNat n.1 ≠ 0x22 ∧ UInt8.ofNat n.1 ≠ 0x5C) := by decide +kernel
  have h' := this ⟨c.toNat, c.toNat_lt⟩
  simp only [UInt8.ofNat_toNat] at h'
  exact h' h

/-! ## Directives -/

theorem digitByte_facts {c : UInt8} (h : isDigit c = true) : c ≠ 0x5B ∧ c ≠ 0x2A ∧ c ≠ 0x2E ∧ c ≠ 0x25 ∧ c.toNat - 48 ≤ 9 ∧ Bare c := by
  have : ∀ n : Fin 256, isDigit (UInt8.ofNat n.1) = true →
      UInt8.ofNat n.1 ≠ 0x5B ∧ UInt8.ofNat n.1 ≠ 0x2A ∧ UInt8.ofNat n.1 ≠ 0x2E ∧ UInt8.ofNat n.1 ≠ 0x25 ∧ (UInt8.ofNat n.1).toNat - 48 ≤ 9 ∧
      (0x20 ≤ (UInt8.ofNat n.1).toNat ∧ (UInt8.ofNat n.1).toNat < 0x7F ∧ UInt8.ofNat n.1 ≠ 0x22 ∧ UInt8.ofNat n.1 ≠ 0x5C) := by decide +kernel
  have h' := this ⟨c.toNat, c.toNat_lt⟩
  simp only [UInt8.ofNat_toNat] at h'
  exact h' h

theorem ShortNumber.digits {s : GoStr} (h : ShortNumber s) : ∀ c ∈ s, isDigit c = true := fun c hc => by
  simp [isDigit, h.2 c hc]

theorem AsciiLetter.letter {c : UInt8} (h : AsciiLetter c) : isLetter c = true := by
  rcases h with h | h <;> simp [isLetter, h]

theorem flag_facts {c : UInt8} (h : c ∈ b! "#0+- ") : isFlag c = true ∧ c ≠ 0x25 ∧ Bare c := by
  simp only [List.mem_cons, List.not_mem_nil, or_false] at h
  rcases h with rfl | rfl | rfl | rfl | rfl <;> exact ⟨rfl, by decide, by unfold Bare; decide⟩

/-- Short numbers are read to their end. -/
theorem parseNum_short : ∀ (ds s : GoStr) (k num : Nat) (b : Bool), (∀ c ∈ ds, isDigit c = true) → ds.length ≤ k → k ≤ 7 → num < 10 ^ (7 - k) →
    (∀ c r, s = c :: r → isDigit c = false) → (parseNum (ds ++ s) num b).2.2 = s
  | [], s, k, num, b, _, _, _, _, hs => by
    cases s with
    | nil => rfl
    | cons c r => simp [parseNum, hs c r rfl]
  | d :: ds, s, 0, num, b, _, h, _, _, _ => by simp at h
  | d :: ds, s, k + 1, num, b, hd, h, hk, hn, hs => by
    have h1 := hd d (List.mem_cons_self ..)
    have h2 := (digitByte_facts h1).2.2.2.2.1
    have hpow : 10 ^ (7 - k) = 10 * 10 ^ (7 - (k + 1)) := by
      rw [show 7 - k = (7 - (k + 1)) + 1 by omega, pow_succ]; ring
    have hle : 10 ^ (7 - (k + 1)) ≤ 10 ^ 6 := Nat.pow_le_pow_right (by norm_num) (by omega)
    rw [List.cons_append, parseNum, if_pos h1, if_neg (by omega)]
    refine parseNum_short ds s k _ true (fun c hc => hd c (List.mem_cons_of_mem _ hc)) (by simpa using h) (by omega) ?_ hs
    rw [hpow]
    omega

/-- The verbs in question: letters and `%`. -/
def IsVerb (c : UInt8) : Prop := isLetter c = true ∨ c = 0x25

/-- What such a verb turns into. -/
def verbText (c : UInt8) : GoStr := if c = 0x25 then [0x25] else b! "%!" ++ [c] ++ b! "(MISSING)"

theorem verb_facts {c : UInt8} (h : IsVerb c) : isFlag c = false ∧ c ≠ 0x5B ∧ c ≠ 0x2A ∧ isDigit c = false ∧ c ≠ 0x2E ∧ c < 0x80 ∧ Bare c := by
  rcases h with h | rfl
  · obtain ⟨h1, h2, h3, h4, h5, -, h7, h8⟩ := letter_facts h
    exact ⟨h1, h2, h3, h4, h5, h7, h8⟩
  · exact ⟨rfl, by decide, by decide, rfl, by decide, by decide, by unfold Bare; decide⟩

theorem argNumber_none {c : UInt8} (h : c ≠ 0x5B) (s : GoStr) : argNumber (c :: s) = (c :: s, false, false) := by
  unfold argNumber
  split
  · rename_i heq; simp only [List.cons.injEq] at heq; exact absurd heq.1 h
  · rfl

theorem fmtVerb_verb {c : UInt8} (h : IsVerb c) (s : GoStr) : fmtVerb [] true (c :: s) = (verbText c, s) := by
  have e3 : decodeRune (c :: s) = some (c.toNat, 1) := by
    unfold decodeRune
    exact if_pos (verb_facts h).2.2.2.2.2.1
  unfold fmtVerb verbText
  split
  · rename_i heq; cases heq
  · rename_i heq
    simp only [List.cons.injEq] at heq
    obtain ⟨rfl, rfl⟩ := heq
    split <;> simp [e3]

theorem fmtIndex_verb {c : UInt8} (h : IsVerb c) (s : GoStr) : fmtIndex [] true false (c :: s) = (verbText c, s) := by
  unfold fmtIndex
  simp only [argNumber_none (verb_facts h).2.1, Bool.false_eq_true, if_false]
  exact fmtVerb_verb h s

theorem fmtPrec_verb {c : UInt8} (h : IsVerb c) (s pr : GoStr) (hp : pr = [] ∨ ∃ n, pr = 0x2E :: n ∧ ShortNumber n) :
    fmtPrec [] true false (pr ++ c :: s) = (verbText c, s) := by
  obtain ⟨h1, h2, h3, h4, h5, h6, h7⟩ := verb_facts h
  rcases hp with rfl | ⟨n, rfl, hn⟩
  · unfold fmtPrec
    split
    · rename_i heq; simp only [List.nil_append, List.cons.injEq] at heq; exact absurd heq.1 h5
    · exact fmtIndex_verb h s
  · have hpn : (parseNum (n ++ c :: s) 0 false).2.2 = c :: s :=
      parseNum_short n (c :: s) 7 0 false hn.digits hn.1 le_rfl (by simp) (fun c' r e => by cases e; exact h4)
    have hhead : ∃ d r, n ++ c :: s = d :: r ∧ d ≠ 0x5B ∧ d ≠ 0x2A := by
      cases n with
      | nil => exact ⟨c, s, rfl, h2, h3⟩
      | cons d r =>
        have := digitByte_facts (hn.digits d (List.mem_cons_self ..))
        exact ⟨d, r ++ c :: s, rfl, this.1, this.2.1⟩
    obtain ⟨d, r, e, hd1, hd2⟩ := hhead
    rw [e] at hpn
    rw [List.cons_append, e]
    unfold fmtPrec
    simp only [argNumber_none hd1, Bool.not_false, Bool.and_self]
    split
    · rename_i heq; simp only [List.cons.injEq] at heq; exact absurd heq.1 hd2
    · rw [hpn]; exact fmtIndex_verb h s

/-- A directive: flags, width, precision and verb. -/
theorem fmtDirective_verb {c : UInt8} (h : IsVerb c) {m : GoStr} (hm : Modifiers m) (s : GoStr) : fmtDirective (m ++ c :: s) = (verbText c, s) := by
  obtain ⟨h1, h2, h3, h4, h5, h6, h7⟩ := verb_facts h
  obtain ⟨fl, wd, pr, rfl, hfl, hwd, hpr⟩ := hm
  have hpc : ∀ c' r, pr ++ c :: s = c' :: r → isFlag c' = false ∧ isDigit c' = false ∧ c' ≠ 0x5B ∧ c' ≠ 0x2A := by
    intro c' r e
    rcases hpr with rfl | ⟨n, rfl, -⟩
    · cases e; exact ⟨h1, h4, h2, h3⟩
    · cases e; exact ⟨rfl, rfl, by decide, by decide⟩
  have hdrop : ∃ ds, (fl ++ wd ++ pr ++ c :: s).dropWhile isFlag = ds ++ (pr ++ c :: s) ∧ ShortNumber ds := by
    have e1 : (fl ++ wd ++ pr ++ c :: s).dropWhile isFlag = (wd ++ (pr ++ c :: s)).dropWhile isFlag := by
      simp only [List.append_assoc]
      exact List.dropWhile_append_of_pos fun c hc => (flag_facts (hfl c hc)).1
    rw [e1]
    obtain ⟨hl, hd⟩ := hwd
    clear e1 hfl
    induction wd with
    | nil =>
      refine ⟨[], ?_, by simp, by simp⟩
      rcases e : pr ++ c :: s with _ | ⟨c', r⟩
      · rfl
      · simp [(hpc c' r e).1]
    | cons d wd ih =>
      by_cases hf : isFlag d = true
      · obtain ⟨ds, g1, g2⟩ := ih (by simp at hl; omega) (fun c hc => hd c (List.mem_cons_of_mem _ hc))
        exact ⟨ds, by rw [List.cons_append, List.dropWhile_cons_of_pos hf, g1], g2⟩
      · exact ⟨d :: wd, by rw [List.cons_append, List.dropWhile_cons_of_neg hf], hl, hd⟩
  obtain ⟨ds, e1, e2⟩ := hdrop
  have hhead : ∃ d r, ds ++ (pr ++ c :: s) = d :: r ∧ d ≠ 0x5B ∧ d ≠ 0x2A := by
    cases ds with
    | nil =>
      rcases e : pr ++ c :: s with _ | ⟨c', r⟩
      · simp at e
      · exact ⟨c', r, rfl, (hpc c' r e).2.2⟩
    | cons d r =>
      have := digitByte_facts (e2.digits d (List.mem_cons_self ..))
      exact ⟨d, _, rfl, this.1, this.2.1⟩
  have hpn : (parseNum (ds ++ (pr ++ c :: s)) 0 false).2.2 = pr ++ c :: s :=
    parseNum_short ds _ 7 0 false e2.digits e2.1 le_rfl (by simp) (fun c' r e => (hpc c' r e).2.1)
  obtain ⟨d, r, e, hd1, hd2⟩ := hhead
  unfold fmtDirective
  simp only [e1]
  rw [e] at hpn ⊢
  simp only [argNumber_none hd1]
  unfold fmtWidth
  split
  · rename_i heq; simp only [List.cons.injEq] at heq; exact absurd heq.1 hd2
  · simp only [hpn, Bool.not_false, Bool.false_and, Bool.and_true]
    exact fmtPrec_verb h s pr hpr

theorem modifiers_bare {m : GoStr} (hm : Modifiers m) : ∀ x ∈ m, Bare x := by
  obtain ⟨fl, wd, pr, rfl, hfl, hwd, hpr⟩ := hm
  intro x hx
  simp only [List.mem_append] at hx
  rcases hx with (hx | hx) | hx
  · exact (flag_facts (hfl x hx)).2.2
  · exact (digitByte_facts (hwd.digits x hx)).2.2.2.2.2
  · rcases hpr with rfl | ⟨n, rfl, hn⟩
    · cases hx
    · rcases List.mem_cons.1 hx with rfl | hx
      · unfold Bare; decide
      · exact (digitByte_facts (hn.digits x hx)).2.2.2.2.2

theorem verbText_bare {c : UInt8} (h : IsVerb c) : ∀ x ∈ verbText c, Bare x := by
  have := (verb_facts h).2.2.2.2.2.2
  unfold verbText
  split
  · simp [Bare]
  · intro x hx
    simp only [List.mem_append, List.mem_cons, List.not_mem_nil, or_false] at hx
    rcases hx with ((rfl | rfl) | rfl) | rfl | rfl | rfl | rfl | rfl | rfl | rfl | rfl | rfl <;> first | assumption | simp [Bare]

theorem quoteBody_verb (isPrint : Nat → Bool) {m : GoStr} {c : UInt8} (hm : Modifiers m) (hc : IsVerb c) (u s : GoStr) :
    quoteBody isPrint (u ++ 0x25 :: (m ++ c :: s)) = quoteBody isPrint u ++ 0x25 :: (m ++ c :: quoteBody isPrint s) := by
  have := quoteBody_split isPrint (x := 0x25) (m := m ++ [c]) (fun y hy => by
    rcases List.mem_cons.1 hy with rfl | hy
    · unfold Bare; decide
    · rcases List.mem_append.1 hy with hy | hy
      · exact modifiers_bare hm y hy
      · rw [List.mem_singleton] at hy; subst hy; exact (verb_facts hc).2.2.2.2.2.2) u s
  simpa using this

theorem quoteBody_verbText (isPrint : Nat → Bool) {c : UInt8} (hc : IsVerb c) (u t : GoStr) :
    quoteBody isPrint (u ++ (verbText c ++ t)) = quoteBody isPrint u ++ (verbText c ++ quoteBody isPrint t) := by
  have hb := verbText_bare hc
  have : ∃ m, verbText c = 0x25 :: m := by unfold verbText; split <;> exact ⟨_, rfl⟩
  obtain ⟨m, hm⟩ := this
  rw [hm] at hb ⊢
  exact quoteBody_split isPrint hb u t

/-- What `Fprintf` makes of a quoted text with directives, between texts without. -/
theorem fmtLoop_formatted (isPrint : Nat → Bool) {s t : GoStr} (h : Formatted s t) : ∀ {pre post : GoStr} {n : Nat}, (0x25 : UInt8) ∉ pre →
    (0x25 : UInt8) ∉ post → (pre ++ quoteBody isPrint s ++ post).length ≤ n →
    fmtLoop n (pre ++ quoteBody isPrint s ++ post) = pre ++ quoteBody isPrint t ++ post := by
  have step : ∀ {u m : GoStr} {c : UInt8} {s t : GoStr}, Plain u → Modifiers m → IsVerb c →
      (∀ {pre post : GoStr} {n : Nat}, (0x25 : UInt8) ∉ pre → (0x25 : UInt8) ∉ post → (pre ++ quoteBody isPrint s ++ post).length ≤ n →
        fmtLoop n (pre ++ quoteBody isPrint s ++ post) = pre ++ quoteBody isPrint t ++ post) →
      ∀ {pre post : GoStr} {n : Nat}, (0x25 : UInt8) ∉ pre → (0x25 : UInt8) ∉ post →
        (pre ++ quoteBody isPrint (u ++ 0x25 :: (m ++ c :: s)) ++ post).length ≤ n →
        fmtLoop n (pre ++ quoteBody isPrint (u ++ 0x25 :: (m ++ c :: s)) ++ post) = pre ++ quoteBody isPrint (u ++ (verbText c ++ t)) ++ post := by
    intro u m c s t hu hm hc ih pre post n h1 h2 h3
    rw [quoteBody_verb isPrint hm hc, quoteBody_verbText isPrint hc] at *
    have e : pre ++ (quoteBody isPrint u ++ 0x25 :: (m ++ c :: quoteBody isPrint s)) ++ post =
        (pre ++ quoteBody isPrint u) ++ 0x25 :: (m ++ c :: ([] ++ quoteBody isPrint s ++ post)) := by simp
    rw [e] at h3 ⊢
    have hpu : (0x25 : UInt8) ∉ pre ++ quoteBody isPrint u := by
      simp [h1, quoteBody, quoteLoop_plain _ _ hu]
    rw [fmtLoop_append _ _ _ (by simp at h3 ⊢; omega) hpu]
    obtain ⟨k, hk⟩ : ∃ k, n - (pre ++ quoteBody isPrint u).length = k + 1 := ⟨n - (pre ++ quoteBody isPrint u).length - 1, by simp at h3 ⊢; omega⟩
    rw [hk, fmtLoop, if_pos rfl, fmtDirective_verb hc hm]
    simp only
    rw [ih (by simp) h2 (by simp at h3 hk ⊢; omega)]
    simp
  induction h with
  | plain u hu =>
    intro pre post n h1 h2 h3
    exact fmtLoop_plain _ _ h3 (by simp [h1, h2, quoteBody, quoteLoop_plain _ _ hu])
  | missing u m c s t hu hm hc _ ih =>
    intro pre post n h1 h2 h3
    have e : verbText c = b! "%!" ++ [c] ++ b! "(MISSING)" := if_neg (letter_facts hc.letter).2.2.2.2.2.1
    have := step hu hm (.inl hc.letter) ih h1 h2 h3
    rw [e] at this
    exact this
  | percent u m s t hu hm _ ih =>
    intro pre post n h1 h2 h3
    exact step hu hm (.inr rfl) ih h1 h2 h3

end Jsval
