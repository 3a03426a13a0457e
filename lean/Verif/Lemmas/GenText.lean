import Verif.Lemmas.FmtText
import Verif.Spec.Generator
import Verif.Lemmas.Decimal
/-!
# Pieces of generated text and what they mean
-/
namespace Jsval
open Go

/-! ## Lexing pieces -/

/-- From between tokens, `t` lexes to `ks` and ends between tokens, with this semicolon flag. -/
def LexN (t : GoStr) (ks : List Tok) (b : Bool) : Prop :=
  ∀ out semi, lexRun ⟨out, .normal, semi⟩ t = ⟨ks.reverse ++ out, .normal, b⟩

/-- Between tokens or in an identifier. -/
def PlainE : LMode → Bool
  | .normal => true
  | .ident _ => true
  | _ => false

/-- … or in a number. -/
def PlainA : LMode → Bool
  | .normal => true
  | .ident _ => true
  | .int _ _ => true
  | .flt _ _ => true
  | _ => false

/-- `t` lexes to `ks`, possibly with the last identifier still open. -/
def LexE (t : GoStr) (ks : List Tok) : Prop :=
  ∀ out semi, PlainE (lexRun ⟨out, .normal, semi⟩ t).mode = true ∧
    settle (lexRun ⟨out, .normal, semi⟩ t) = ⟨ks.reverse ++ out, .normal, true⟩

/-- `t` lexes to `ks`, possibly with the last identifier or number still open. -/
def LexA (t : GoStr) (ks : List Tok) : Prop :=
  ∀ out semi, PlainA (lexRun ⟨out, .normal, semi⟩ t).mode = true ∧
    settle (lexRun ⟨out, .normal, semi⟩ t) = ⟨ks.reverse ++ out, .normal, true⟩

theorem LexE.toA {t ks} (h : LexE t ks) : LexA t ks := by
  intro out semi
  obtain ⟨h1, h2⟩ := h out semi
  refine ⟨?_, h2⟩
  revert h1
  cases (lexRun ⟨out, .normal, semi⟩ t).mode <;> simp [PlainE, PlainA]

theorem LexN.toE {t ks} (h : LexN t ks true) : LexE t ks := by
  intro out semi
  rw [h out semi]
  exact ⟨rfl, rfl⟩

theorem LexN.append {t ks b u ks' b'} (h : LexN t ks b) (h' : LexN u ks' b') : LexN (t ++ u) (ks ++ ks') b' := by
  intro out semi
  rw [lexRun_append, h, h']
  simp

theorem LexN.appendE {t ks b u ks'} (h : LexN t ks b) (h' : LexE u ks') : LexE (t ++ u) (ks ++ ks') := by
  intro out semi
  rw [lexRun_append, h]
  obtain ⟨h1, h2⟩ := h' (ks.reverse ++ out) b
  exact ⟨h1, by rw [h2]; simp⟩

theorem LexN.appendA {t ks b u ks'} (h : LexN t ks b) (h' : LexA u ks') : LexA (t ++ u) (ks ++ ks') := by
  intro out semi
  rw [lexRun_append, h]
  obtain ⟨h1, h2⟩ := h' (ks.reverse ++ out) b
  exact ⟨h1, by rw [h2]; simp⟩

/-- A byte that ends an identifier. -/
def endsIdent (c : UInt8) : Bool := !isLetter c && !isDigit c

/-- A byte that ends an identifier or a number. -/
def endsArg (c : UInt8) : Bool := !isLetter c && !isDigit c && c != 0x2E

theorem lexStep_settleE {s : LSt} {c : UInt8} (hs : PlainE s.mode = true) (hc : endsIdent c = true) :
    lexStep s c = lexStep (settle s) c := by
  obtain ⟨out, mode, semi⟩ := s
  simp only [endsIdent, Bool.and_eq_true, Bool.not_eq_true'] at hc
  cases mode <;> simp [PlainE] at hs
  · rfl
  · simp [lexStep, hc.1, hc.2, settle]

theorem lexStep_settleA {s : LSt} {c : UInt8} (hs : PlainA s.mode = true) (hc : endsArg c = true) :
    lexStep s c = lexStep (settle s) c := by
  obtain ⟨out, mode, semi⟩ := s
  simp only [endsArg, Bool.and_eq_true, Bool.not_eq_true', bne_iff_ne] at hc
  cases mode <;> simp [PlainA] at hs
  · rfl
  · simp [lexStep, hc.1, settle]
  · simp [lexStep, hc.1, hc.2, settle]
  · simp [lexStep, hc.1, hc.2, settle]

theorem LexE.thenN {t ks c u ks' b} (h : LexE t ks) (hc : endsIdent c = true) (h' : LexN (c :: u) ks' b) :
    LexN (t ++ c :: u) (ks ++ ks') b := by
  intro out semi
  obtain ⟨h1, h2⟩ := h out semi
  rw [lexRun_append, lexRun_cons, lexStep_settleE h1 hc, h2, ← lexRun_cons, h']
  simp

theorem LexA.thenN {t ks c u ks' b} (h : LexA t ks) (hc : endsArg c = true) (h' : LexN (c :: u) ks' b) :
    LexN (t ++ c :: u) (ks ++ ks') b := by
  intro out semi
  obtain ⟨h1, h2⟩ := h out semi
  rw [lexRun_append, lexRun_cons, lexStep_settleA h1 hc, h2, ← lexRun_cons, h']
  simp

theorem LexA.thenA {t ks c u ks'} (h : LexA t ks) (hc : endsArg c = true) (h' : LexA (c :: u) ks') :
    LexA (t ++ c :: u) (ks ++ ks') := by
  intro out semi
  obtain ⟨h1, h2⟩ := h out semi
  rw [lexRun_append, lexRun_cons, lexStep_settleA h1 hc, h2, ← lexRun_cons]
  obtain ⟨h3, h4⟩ := h' (ks.reverse ++ out) true
  exact ⟨h3, by rw [h4]; simp⟩

/-! ## Parsing pieces -/

theorem parseRun_append (s : PSt) (a b : List Tok) : parseRun s (a ++ b) = parseRun (parseRun s a) b := by
  simp [parseRun, List.foldl_append]

theorem parseRun_cons (s : PSt) (t : Tok) (l : List Tok) : parseRun s (t :: l) = parseRun (parseStep s t) l := rfl

theorem parseRun_nil (s : PSt) : parseRun s [] = s := rfl

/-- The tokens form the operand `e`. -/
def Operand (ks : List Tok) (e : Expr) : Prop :=
  ∀ d s lhs stk, parseRun ⟨d, s, .want lhs stk⟩ ks = ⟨d, s, .have lhs e stk⟩

/-- The tokens form an argument `e`: they behave like the operand `e` when a comma or parenthesis follows. -/
def Argument (ks : List Tok) (e : Expr) : Prop :=
  ∀ d s lhs stk c, c = 0x2C ∨ c = 0x29 →
    parseStep (parseRun ⟨d, s, .want lhs stk⟩ ks) (.op c) = parseStep ⟨d, s, .have lhs e stk⟩ (.op c)

theorem Operand.toArg {ks e} (h : Operand ks e) : Argument ks e := by
  intro d s lhs stk c _
  rw [h]

/-- The tokens form a call of method `n` with arguments `args`. -/
def CallToks (ks : List Tok) (n : GoStr) (args : List Expr) : Prop :=
  ∀ d s lhs e stk, parseRun ⟨d, s, .have lhs e stk⟩ ks = ⟨d, s, .have lhs (.call (.sel e n) args) stk⟩

/-- The tokens form an argument list, each argument followed by a comma. -/
def ArgsComma (ks : List Tok) (args : List Expr) : Prop :=
  ∀ d s lhs f acc stk, parseRun ⟨d, s, .want lhs (.call f acc :: stk)⟩ ks =
    ⟨d, s, .want lhs (.call f (acc ++ args) :: stk)⟩

theorem ArgsComma.nil : ArgsComma [] [] := by
  intro d s lhs f acc stk
  simp [parseRun_nil]

theorem parseStep_comma (d s lhs f acc stk) (e : Expr) :
    parseStep ⟨d, s, .have lhs e (.call f acc :: stk)⟩ (.op 0x2C) = ⟨d, s, .want lhs (.call f (acc ++ [e]) :: stk)⟩ := rfl

theorem parseStep_close (d s lhs f acc stk) (e : Expr) :
    parseStep ⟨d, s, .have lhs e (.call f acc :: stk)⟩ (.op 0x29) = ⟨d, s, .have lhs (.call f (acc ++ [e])) stk⟩ := rfl

theorem ArgsComma.snoc {ks args ks' e} (h : ArgsComma ks args) (h' : Argument ks' e) :
    ArgsComma (ks ++ (ks' ++ [.op 0x2C])) (args ++ [e]) := by
  intro d s lhs f acc stk
  rw [parseRun_append, h, parseRun_append, parseRun_cons, parseRun_nil, h' _ _ _ _ _ (.inl rfl), parseStep_comma]
  simp

/-- Opening a call. -/
theorem parse_open (d s lhs e stk) (n : GoStr) :
    parseRun ⟨d, s, .have lhs e stk⟩ [.op 0x2E, .ident n, .op 0x28] = ⟨d, s, .want lhs (.call (.sel e n) [] :: stk)⟩ := rfl

/-- A call whose last argument is followed by a comma. -/
theorem CallToks.ofComma {ks args} (n : GoStr) (h : ArgsComma ks args) :
    CallToks ([.op 0x2E, .ident n, .op 0x28] ++ (ks ++ [.op 0x29])) n args := by
  intro d s lhs e stk
  rw [parseRun_append, parse_open, parseRun_append, h]
  rfl

/-- A call whose last argument is not followed by a comma. -/
theorem CallToks.ofArgs {ks args ks' e'} (n : GoStr) (h : ArgsComma ks args) (h' : Argument ks' e') :
    CallToks ([.op 0x2E, .ident n, .op 0x28] ++ (ks ++ (ks' ++ [.op 0x29]))) n (args ++ [e']) := by
  intro d s lhs e stk
  rw [parseRun_append, parse_open, parseRun_append, h, parseRun_append, parseRun_cons, parseRun_nil,
    h' _ _ _ _ _ (.inr rfl), parseStep_close]
  rfl

/-! ## Meaning of pieces -/

variable {ρ : GoStr → Option Val}

/-- The text is an expression with this value. -/
structure Builds (ρ : GoStr → Option Val) (t : GoStr) (v : Val) : Prop where
  noPct : (0x25 : UInt8) ∉ t
  start : ∃ t', t = 0x6A :: t'
  fin : ∃ t' c, t = t' ++ [c] ∧ c ≠ 0x0A
  reads : ∃ ks e, LexE t ks ∧ Operand ks e ∧ isPkg e = false ∧ eval ρ e = some v

/-- The text is a constant argument with this value. -/
structure ArgText (ρ : GoStr → Option Val) (t : GoStr) (v : Val) : Prop where
  noPct : (0x25 : UInt8) ∉ t
  reads : ∃ ks e, LexA t ks ∧ Argument ks e ∧ eval ρ e = some v

/-- The text is a method call turning `v` into `v'`. -/
structure Step (ρ : GoStr → Option Val) (t : GoStr) (v v' : Val) : Prop where
  noPct : (0x25 : UInt8) ∉ t
  fin : ∃ t', t = t' ++ [0x29]
  reads : ∃ ks n args vs t', t = 0x2E :: t' ∧ LexN t ks true ∧ CallToks ks n args ∧ evalArgs ρ args = some vs ∧
    method v n vs = some v'

/-- A sequence of method calls. -/
inductive Chain (ρ : GoStr → Option Val) : GoStr → Val → Val → Prop where
  | nil (v) : Chain ρ [] v v
  | snoc {t u v v' v''} : Chain ρ t v v' → Step ρ u v' v'' → Chain ρ (t ++ u) v v''

theorem Step.chain {t v v'} (h : Step ρ t v v') : Chain ρ t v v' := by
  simpa using (Chain.nil v).snoc h

theorem Chain.append {t u v v' v''} (h : Chain ρ t v v') (h' : Chain ρ u v' v'') : Chain ρ (t ++ u) v v'' := by
  induction h' with
  | nil => simpa using h
  | snoc _ hs ih => rw [← List.append_assoc]; exact (ih h).snoc hs

theorem Builds.noDot {t v} (h : Builds ρ t v) : ¬ b! ".\n" <:+ t := by
  obtain ⟨t', c, rfl, hc⟩ := h.fin
  intro hs
  obtain ⟨u, hu⟩ := hs
  have := congrArg (fun l => l.getLast?) hu
  simp at this
  exact hc this.symm

theorem Builds.emit {t v} (h : Builds ρ t v) : emitCode (.ok t) = .ok t := emitCode_plain h.noPct h.noDot

theorem eval_call {e : Expr} {n : GoStr} {args : List Expr} {v : Val} {vs : List Val} (hp : isPkg e = false)
    (he : eval ρ e = some v) (ha : evalArgs ρ args = some vs) : eval ρ (.call (.sel e n) args) = method v n vs := by
  rw [eval, ha]
  simp [hp, he]

theorem Builds.step {t u v v'} (h : Builds ρ t v) (h' : Step ρ u v v') : Builds ρ (t ++ u) v' := by
  obtain ⟨h1, ⟨t0, rfl⟩, _, ks, e, hl, ho, hp, he⟩ := h
  obtain ⟨g1, ⟨u0, hu0⟩, ks', n, args, vs, u', rfl, hl', hc, ha, hm⟩ := h'
  refine ⟨by simp only [List.mem_append, not_or]; exact ⟨h1, g1⟩, ⟨_, List.cons_append ..⟩, ?_,
    ks ++ ks', .call (.sel e n) args, ?_, ?_, rfl, ?_⟩
  · exact ⟨0x6A :: t0 ++ u0, 0x29, by rw [List.append_assoc, ← hu0], by decide⟩
  · exact (hl.thenN (by decide) hl').toE
  · intro d s lhs stk
    rw [parseRun_append, ho, hc]
  · rw [eval_call hp he ha, hm]

theorem Builds.chain {t u v v'} (h : Builds ρ t v) (h' : Chain ρ u v v') : Builds ρ (t ++ u) v' := by
  induction h' with
  | nil => simpa using h
  | snoc _ hs ih => rw [← List.append_assoc]; exact (ih h).step hs

/-- Package variables. -/
theorem Builds.pkgVar {n : GoStr} {v : Val} (h1 : (0x25 : UInt8) ∉ n) (h2 : ∃ t' c, n = t' ++ [c] ∧ c ≠ 0x0A)
    (h3 : LexE (b! "jsval." ++ n) [.ident (b! "jsval"), .op 0x2E, .ident n]) (h4 : Go.pkgVar n = some v) :
    Builds ρ (b! "jsval." ++ n) v := by
  obtain ⟨t', c, rfl, hc⟩ := h2
  refine ⟨by simpa using h1, ⟨_, rfl⟩, ⟨b! "jsval." ++ t', c, by simp, hc⟩, _, .sel (.ident (b! "jsval")) (t' ++ [c]), h3, ?_, rfl, ?_⟩
  · intro d s lhs stk; rfl
  · rw [eval, if_pos (by rfl), h4]

/-- Package functions without arguments. -/
theorem Builds.pkgFunc {n : GoStr} {v : Val} (h1 : (0x25 : UInt8) ∉ n)
    (h3 : LexN (b! "jsval." ++ n ++ b! "()") [.ident (b! "jsval"), .op 0x2E, .ident n, .op 0x28, .op 0x29] true)
    (h4 : Go.pkgFunc n [] = some v) :
    Builds ρ (b! "jsval." ++ n ++ b! "()") v := by
  refine ⟨by simpa using h1, ⟨_, rfl⟩, ⟨b! "jsval." ++ n ++ b! "(", 0x29, by simp, by decide⟩, _,
    .call (.sel (.ident (b! "jsval")) n) [], h3.toE, ?_, rfl, ?_⟩
  · intro d s lhs stk; rfl
  · rw [eval, evalArgs]
    exact h4

/-! ### Arguments -/

theorem ArgText.quote {isPrint : Nat → Bool} {s : GoStr} (h : (0x25 : UInt8) ∉ s) :
    ArgText ρ (goQuote isPrint s) (.str s) := by
  refine ⟨goQuote_plain h, [.str s], .str s, ?_, ?_, rfl⟩
  · have : LexN (goQuote isPrint s) [.str s] true := fun out semi => lexRun_quote s
    exact this.toE.toA
  · intro d s' lhs stk c _; rfl

theorem argument_int (n : Nat) : Argument [.int n] (.int n) := by
  intro d s lhs stk c _; rfl

theorem argument_neg {t : Tok} {e : Expr} (h : ∀ d s lhs stk, parseStep ⟨d, s, .want lhs stk⟩ t = ⟨d, s, .have lhs e stk⟩) :
    Argument [.op 0x2D, t] (.unary 0x2D e) := by
  intro d s lhs stk c hc
  rw [parseRun_cons, parseRun_cons, parseRun_nil]
  have : parseStep ⟨d, s, .want lhs stk⟩ (.op 0x2D) = ⟨d, s, .want lhs (.unary 0x2D :: stk)⟩ := rfl
  rw [this, h]
  rcases hc with rfl | rfl <;> rfl

theorem lexA_nat (n : Nat) : LexA (natDec n) [.int n] := by
  intro out semi
  obtain ⟨more, h⟩ := lexRun_natDec (out := out) (semi := semi) n
  rw [h]
  exact ⟨rfl, rfl⟩

theorem lexN_minus : LexN [0x2D] [.op 0x2D] false := fun _ _ => rfl

theorem ArgText.int (n : Int) : ArgText ρ (intDec n) (.int n) := by
  refine ⟨intDec_plain n, ?_⟩
  unfold intDec
  split_ifs with h
  · refine ⟨[.op 0x2D, .int n.natAbs], .unary 0x2D (.int n.natAbs), lexN_minus.appendA (lexA_nat _), argument_neg (fun _ _ _ _ => rfl), ?_⟩
    simp only [eval, beq_self_eq_true, if_true, Option.some.injEq, Val.int.injEq]
    omega
  · refine ⟨[.int n.natAbs], .int n.natAbs, lexA_nat _, argument_int _, ?_⟩
    simp only [eval, Option.some.injEq, Val.int.injEq]
    omega

theorem ArgText.bool (b : Bool) : ArgText ρ (boolDec b) (.bool b) := by
  cases b
  · refine ⟨by decide, [.ident (b! "false")], .ident (b! "false"), fun _ _ => ⟨rfl, rfl⟩, fun _ _ _ _ _ _ => rfl, rfl⟩
  · refine ⟨by decide, [.ident (b! "true")], .ident (b! "true"), fun _ _ => ⟨rfl, rfl⟩, fun _ _ _ _ _ _ => rfl, rfl⟩

theorem lexA_dec (i j : Nat) : LexA (natDec i ++ [46] ++ decDigits 6 j) [.flt (i * 10 ^ 6 + j % 10 ^ 6) 6] := by
  intro out semi
  obtain ⟨more, h⟩ := lexRun_natDec (out := out) (semi := semi) i
  rw [lexRun_append, lexRun_append, h, lexRun_cons, lexRun_nil]
  have : lexStep ⟨out, .int i more, semi⟩ 46 = ⟨out, .flt i 0, semi⟩ := rfl
  rw [this, lexRun_decDigits]
  refine ⟨rfl, ?_⟩
  simp [settle]

theorem argument_flt (n k : Nat) : Argument [.flt n k] (.flt n k) := by
  intro d s lhs stk c _; rfl

/-- A finite float is written as its rounding to six decimals. -/
theorem ArgText.fin (neg : Bool) (m : Nat) : ArgText ρ (fltDec (.fin neg m)) (.flt neg (divRound (m * 1000000) F64.unit) 6) := by
  refine ⟨fltDec_plain _, ?_⟩
  unfold fltDec
  dsimp only
  generalize divRound (m * 1000000) F64.unit = u
  have hval : u / 1000000 * 10 ^ 6 + u % 1000000 % 10 ^ 6 = u := by norm_num; omega
  have hl := lexA_dec (u / 1000000) (u % 1000000)
  rw [hval] at hl
  cases neg
  · exact ⟨[.flt u 6], .flt u 6, hl, argument_flt _ _, rfl⟩
  · refine ⟨[.op 0x2D, .flt u 6], .unary 0x2D (.flt u 6), ?_, argument_neg (fun _ _ _ _ => rfl), rfl⟩
    have := lexN_minus.appendA hl
    simpa using this

/-- A float made from a number with at most six decimals is read back. -/
theorem ArgText.flt {f : F64} (h : SixDec f) : ∃ neg n k, ArgText ρ (fltDec f) (.flt neg n k) ∧ decF64 neg n k = some f := by
  obtain ⟨neg₀, u, hd, hs⟩ := h
  obtain ⟨neg, m, rfl⟩ : ∃ neg m, f = .fin neg m := by
    unfold decF64 at hd
    dsimp only at hd
    split at hd
    · cases hd; exact ⟨_, _, rfl⟩
    · cases hd
  have hu : divRound (m * 1000000) F64.unit = u := sixDec_round hd (hs.imp_right (by rintro ⟨_, _, h, he⟩; cases h; exact he))
  have hneg : decF64 neg u 6 = some (.fin neg m) := by
    unfold decF64 at hd ⊢
    dsimp only at hd ⊢
    split at hd
    · next hlt =>
      rw [if_pos hlt]
      cases hd
      cases neg₀ <;> simp
    · cases hd
  exact ⟨neg, u, 6, hu ▸ ArgText.fin neg m, hneg⟩

/-- Every finite float is read back as the float closest to its rounding to six decimals. -/
theorem ArgText.reread {f : F64} (h : f.IsFinite) : ∃ neg n k, ArgText ρ (fltDec f) (.flt neg n k) ∧ decF64 neg n k = some f.reread := by
  obtain ⟨neg, m, rfl, hm, hlt⟩ := h
  refine ⟨neg, _, 6, ArgText.fin neg m, ?_⟩
  have := reread_lt hm hlt
  unfold decF64 F64.reread
  dsimp only
  have e : (1000000 : Nat) = 10 ^ 6 := by norm_num
  rw [e, if_pos this]

/-! ### Calls -/

theorem evalArgs_snoc : ∀ {args : List Expr} {vs : List Val} {e : Expr} {v : Val}, evalArgs ρ args = some vs →
    eval ρ e = some v → evalArgs ρ (args ++ [e]) = some (vs ++ [v])
  | [], vs, e, v, h, h' => by
    simp only [evalArgs, Option.some.injEq] at h
    subst h
    simp [evalArgs, h']
  | a :: args, vs, e, v, h, h' => by
    rw [evalArgs] at h
    cases h1 : eval ρ a with
    | none => simp [h1] at h
    | some w =>
      cases h2 : evalArgs ρ args with
      | none => simp [h1, h2] at h
      | some ws =>
        simp only [h1, h2, Option.some.injEq] at h
        subst h
        rw [List.cons_append, evalArgs, h1, evalArgs_snoc h2 h']
        rfl

/-- The method name and the opening parenthesis. -/
abbrev OpenText (t : GoStr) (n : GoStr) : Prop :=
  (0x25 : UInt8) ∉ t ∧ (∃ t', t = 0x2E :: t') ∧ LexN t [.op 0x2E, .ident n, .op 0x28] false

theorem lexN_close : LexN [0x29] [.op 0x29] true := fun _ _ => rfl

theorem lexN_commaClose : LexN (b! ",\n)") [.op 0x2C, .op 0x29] true := fun _ _ => rfl

theorem lexN_commaClose' : LexN (b! ",)") [.op 0x2C, .op 0x29] true := fun _ _ => rfl

/-- A list of arguments, each followed by a comma and white space. -/
structure ArgsText (ρ : GoStr → Option Val) (t : GoStr) (vs : List Val) : Prop where
  noPct : (0x25 : UInt8) ∉ t
  reads : ∃ ks args b, (∀ out, lexRun ⟨out, .normal, false⟩ t = ⟨ks.reverse ++ out, .normal, b⟩) ∧ b = false ∧
    ArgsComma ks args ∧ evalArgs ρ args = some vs

theorem ArgsText.nil : ArgsText ρ [] [] :=
  ⟨by simp, [], [], false, fun _ => rfl, rfl, ArgsComma.nil, rfl⟩

/-- A separator: a comma and white space. -/
def Sep (t : GoStr) : Prop := t = b! ", " ∨ t = b! ",\n"

theorem Sep.lex {t} (h : Sep t) : LexN t [.op 0x2C] false ∧ (0x25 : UInt8) ∉ t ∧ ∃ t', t = 0x2C :: t' := by
  rcases h with rfl | rfl
  · exact ⟨fun _ _ => rfl, by decide, _, rfl⟩
  · exact ⟨fun _ _ => rfl, by decide, _, rfl⟩

theorem ArgsText.snoc {t vs u v sep} (h : ArgsText ρ t vs) (h' : ArgText ρ u v) (hs : Sep sep) :
    ArgsText ρ (t ++ (u ++ sep)) (vs ++ [v]) := by
  obtain ⟨h1, ks, args, b, hl, rfl, hp, he⟩ := h
  obtain ⟨g1, ks', e, gl, gp, ge⟩ := h'
  obtain ⟨sl, s1, t', rfl⟩ := hs.lex
  refine ⟨?_, ks ++ (ks' ++ [.op 0x2C]), args ++ [e], false, ?_, rfl, hp.snoc gp, evalArgs_snoc he ge⟩
  · simp only [List.mem_append, not_or]
    exact ⟨h1, g1, s1⟩
  · intro out
    rw [lexRun_append, hl, gl.thenN (by decide) sl]
    simp

/-- A call whose arguments all end with a comma. -/
theorem Step.ofComma {t u n vs v v'} (ho : OpenText t n) (ha : ArgsText ρ u vs) (hm : method v n vs = some v') :
    Step ρ (t ++ (u ++ [0x29])) v v' := by
  obtain ⟨h1, ⟨t', rfl⟩, hl⟩ := ho
  obtain ⟨g1, ks, args, b, gl, rfl, gp, ge⟩ := ha
  refine ⟨?_, ⟨0x2E :: t' ++ u, by simp⟩, _, n, args, vs, _, List.cons_append .., ?_, CallToks.ofComma n gp, ge, hm⟩
  · simp only [List.mem_append, not_or]
    exact ⟨h1, g1, by decide⟩
  · intro out semi
    rw [lexRun_append, hl, lexRun_append, gl, lexN_close]
    simp

/-- A call whose last argument is not followed by a comma. -/
theorem Step.ofArgs {t u w n vs x v v'} (ho : OpenText t n) (ha : ArgsText ρ u vs) (hw : ArgText ρ w x)
    (hm : method v n (vs ++ [x]) = some v') : Step ρ (t ++ (u ++ (w ++ [0x29]))) v v' := by
  obtain ⟨h1, ⟨t', rfl⟩, hl⟩ := ho
  obtain ⟨g1, ks, args, b, gl, rfl, gp, ge⟩ := ha
  obtain ⟨k1, ks', e, kl, kp, ke⟩ := hw
  refine ⟨?_, ⟨0x2E :: t' ++ (u ++ w), by simp⟩, _, n, _, _, _, List.cons_append .., ?_, CallToks.ofArgs n gp kp,
    evalArgs_snoc ge ke, hm⟩
  · simp only [List.mem_append, not_or]
    exact ⟨h1, g1, k1, by decide⟩
  · intro out semi
    rw [lexRun_append, hl, lexRun_append, gl, kl.thenN (by decide) lexN_close]
    simp

/-- A call with one argument. -/
theorem Step.one {t w n x v v'} (ho : OpenText t n) (hw : ArgText ρ w x) (hm : method v n [x] = some v') :
    Step ρ (t ++ w ++ [0x29]) v v' := by
  have := Step.ofArgs ho ArgsText.nil hw hm
  simpa using this

theorem Builds.toArg {t v} (h : Builds ρ t v) : ArgText ρ t v := by
  obtain ⟨h1, _, _, ks, e, hl, ho, _, he⟩ := h
  exact ⟨h1, ks, e, hl.toA, ho.toArg, he⟩

end Jsval
