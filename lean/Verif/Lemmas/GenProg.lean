import Verif.Lemmas.GenDet
/-!
# The generated program
-/
namespace Jsval
open Go

/-! ## Lexing line by line -/

/-- After a newline the lexer is between lines, with these tokens. -/
def Ready (s : LSt) (out : List Tok) : Prop := lexStep s 0x0A = ⟨out, .normal, false⟩

theorem Ready.start : Ready ⟨[], .normal, false⟩ [] := rfl

/-- A line that ends a statement. -/
theorem Ready.line {s out body ks} (h : Ready s out) (hb : LexE body ks) :
    Ready (lexRun s (0x0A :: body)) ((ks ++ [Tok.op 0x3B]).reverse ++ out) := by
  rw [lexRun_cons, h]
  obtain ⟨h1, h2⟩ := hb out false
  unfold Ready
  rw [lexStep_settleE h1 (by decide), h2]
  simp [lexStep, lexNormal]

/-- A line that does not end a statement. -/
theorem Ready.openLine {s out body ks} (h : Ready s out) (hb : LexN body ks false) : Ready (lexRun s (0x0A :: body)) (ks.reverse ++ out) := by
  rw [lexRun_cons, h, hb]
  rfl

/-- An empty line. -/
theorem Ready.blank {s out} (h : Ready s out) : Ready (lexRun s [0x0A]) out := by
  rw [lexRun_cons, h]
  rfl

theorem lexRun_ident : ∀ (t acc : GoStr) (out : List Tok) (semi : Bool), (∀ c ∈ t, isLetter c = true ∨ isDigit c = true) →
    lexRun ⟨out, .ident acc, semi⟩ t = ⟨out, .ident (acc ++ t), semi⟩
  | [], acc, out, semi, _ => by simp [lexRun]
  | c :: t, acc, out, semi, h => by
    have hc : (isLetter c || isDigit c) = true := by
      rcases h c (List.mem_cons_self ..) with h | h <;> simp [h]
    rw [lexRun_cons]
    have e : lexStep ⟨out, .ident acc, semi⟩ c = ⟨out, .ident (acc ++ [c]), semi⟩ := by
      simp only [lexStep, hc, if_true]
    rw [e, lexRun_ident t _ _ _ (fun d hd => h d (List.mem_cons_of_mem _ hd))]
    simp

theorem letter_not_ws {c : UInt8} (h : isLetter c = true) : ¬ (c == 0x0A) = true ∧ ¬ (c == 0x20 || c == 0x09 || c == 0x0D) = true := by
  constructor
  · intro h'
    rw [beq_iff_eq] at h'
    subst h'
    exact absurd h (by decide)
  · intro h'
    simp only [Bool.or_eq_true, beq_iff_eq] at h'
    rcases h' with (rfl | rfl) | rfl <;> exact absurd h (by decide)

theorem GoIdent.lex {x : GoStr} (h : GoIdent x) : LexE x [.ident x] := by
  intro out semi
  obtain ⟨c, t, rfl, hc⟩ := h.first
  have h0 : lexStep ⟨out, .normal, semi⟩ c = ⟨out, .ident [c], semi⟩ := by
    obtain ⟨h1, h2⟩ := letter_not_ws hc
    simp only [lexStep, lexNormal]
    rw [if_neg h1, if_neg h2, if_pos hc]
  rw [lexRun_cons, h0, lexRun_ident t [c] out semi (fun d hd => h.all d (List.mem_cons_of_mem _ hd))]
  have hk : (c :: t) ∉ keywords := fun hk => h.keyword (List.mem_append_left _ hk)
  refine ⟨rfl, ?_⟩
  simp [settle, hk]

theorem LexE.thenE {t ks c u ks'} (h : LexE t ks) (hc : endsIdent c = true) (h' : LexE (c :: u) ks') :
    LexE (t ++ c :: u) (ks ++ ks') := by
  intro out semi
  obtain ⟨h1, h2⟩ := h out semi
  rw [lexRun_append, lexRun_cons, lexStep_settleE h1 hc, h2, ← lexRun_cons]
  obtain ⟨h3, h4⟩ := h' (ks.reverse ++ out) true
  exact ⟨h3, by rw [h4]; simp⟩

/-! ## Reading pieces of a program -/

/-- The text takes the parser from one state to another, from line to line. -/
def Reads (t : GoStr) (p p' : PSt) : Prop :=
  ∀ s out, Ready s out → ∃ ks : List Tok, Ready (lexRun s t) (ks.reverse ++ out) ∧ parseRun p ks = p'

theorem Reads.nil (p : PSt) : Reads [] p p := fun _ _ h => ⟨[], h, rfl⟩

theorem Reads.append {t u p p' p''} (h : Reads t p p') (h' : Reads u p' p'') : Reads (t ++ u) p p'' := by
  intro s out hr
  obtain ⟨ks, h1, h2⟩ := h s out hr
  obtain ⟨ks', h3, h4⟩ := h' _ _ h1
  refine ⟨ks ++ ks', ?_, ?_⟩
  · rw [lexRun_append, List.reverse_append, List.append_assoc]
    exact h3
  · rw [parseRun_append, h2, h4]

theorem Reads.line {body ks p p'} (hb : LexE body ks) (hp : parseRun p (ks ++ [.op 0x3B]) = p') : Reads (0x0A :: body) p p' :=
  fun _ _ h => ⟨_, h.line hb, hp⟩

theorem Reads.blank (p : PSt) : Reads [0x0A] p p := fun _ _ h => ⟨[], h.blank, rfl⟩

theorem Reads.prog {t d s} (h : Reads t ⟨[], [], .top⟩ ⟨d, s, .top⟩) : parseProg t = some ⟨d.reverse, s.reverse⟩ := by
  obtain ⟨ks, h1, h2⟩ := h _ _ Ready.start
  unfold parseProg lex
  rw [h1]
  simp only [List.append_nil, List.reverse_reverse, h2]

/-! ### Declarations -/

theorem GoIdent.notKw {x : GoStr} (h : GoIdent x) : x ∉ keywords := fun hk => h.keyword (List.mem_append_left _ hk)

/-- `*T` with this type name. -/
theorem ptrDecl_reads {x T : GoStr} (hx : GoIdent x) (hT : LexE (b! " *jsval." ++ T) [.op 0x2A, .ident (b! "jsval"), .op 0x2E, .ident T]) (d s) :
    Reads (b! "\nvar " ++ x ++ b! " *jsval." ++ T) ⟨d, s, .top⟩ ⟨⟨x, true, b! "jsval", T⟩ :: d, s, .top⟩ := by
  have hl : LexN (b! "var ") [.ident (b! "var")] false := fun _ _ => rfl
  have := hl.appendE (hx.lex.thenE (c := 0x20) (by decide) hT)
  have e : b! "\nvar " ++ x ++ b! " *jsval." ++ T = 0x0A :: (b! "var " ++ (x ++ (b! " *jsval." ++ T))) := by simp
  rw [e]
  refine Reads.line this ?_
  simp [parseRun, parseStep, hx.notKw]

theorem conDecl_reads {x : GoStr} (hx : GoIdent x) (d s) :
    Reads (b! "\nvar " ++ x ++ b! " jsval.Constraint") ⟨d, s, .top⟩ ⟨⟨x, false, b! "jsval", b! "Constraint"⟩ :: d, s, .top⟩ := by
  have hl : LexN (b! "var ") [.ident (b! "var")] false := fun _ _ => rfl
  have hT : LexE (b! " jsval.Constraint") [.ident (b! "jsval"), .op 0x2E, .ident (b! "Constraint")] := fun _ _ => ⟨rfl, rfl⟩
  have := hl.appendE (hx.lex.thenE (c := 0x20) (by decide) hT)
  have e : b! "\nvar " ++ x ++ b! " jsval.Constraint" = 0x0A :: (b! "var " ++ (x ++ (b! " jsval.Constraint"))) := by simp
  rw [e]
  refine Reads.line this ?_
  simp [parseRun, parseStep, hx.notKw]

theorem funcOpen_reads (d s) : Reads (b! "\nfunc init() {") ⟨d, s, .top⟩ ⟨d, s, .body⟩ := by
  intro st out h
  have hl : LexN (b! "func init() {") [.ident (b! "func"), .ident (b! "init"), .op 0x28, .op 0x29, .op 0x7B] false := fun _ _ => rfl
  exact ⟨_, h.openLine hl, rfl⟩

theorem funcClose_reads (d s) : Reads (b! "\n}") ⟨d, s, .body⟩ ⟨d, s, .top⟩ :=
  Reads.line (body := b! "}") (ks := [.op 0x7D]) (fun _ _ => ⟨rfl, rfl⟩) rfl

/-! ### Statements -/

/-- The text is a sequence of statements taking memory `s` to `s'`. -/
def Seg (decls : List VarDecl) (t : GoStr) (s s' : Mem) : Prop :=
  ∃ stmts : List Stmt, (∀ d st, Reads t ⟨d, st, .body⟩ ⟨d, stmts.reverse ++ st, .body⟩) ∧ execAll decls stmts s = some s'

theorem execAll_append (decls : List VarDecl) : ∀ (a b : List Stmt) (s : Mem),
    execAll decls (a ++ b) s = (execAll decls a s).bind (execAll decls b)
  | [], b, s => rfl
  | x :: a, b, s => by
    rw [List.cons_append, execAll, execAll]
    cases exec decls s x with
    | none => rfl
    | some s' => simp only [Option.bind_some]; exact execAll_append decls a b s'

theorem Seg.nil (decls : List VarDecl) (s : Mem) : Seg decls [] s s := ⟨[], fun _ _ => Reads.nil _, rfl⟩

theorem Seg.append {decls t u s s' s''} (h : Seg decls t s s') (h' : Seg decls u s' s'') : Seg decls (t ++ u) s s'' := by
  obtain ⟨a, h1, h2⟩ := h
  obtain ⟨b, h3, h4⟩ := h'
  refine ⟨a ++ b, fun d st => ?_, ?_⟩
  · have := (h1 d st).append (h3 d (a.reverse ++ st))
    simpa using this
  · rw [execAll_append, h2]; exact h4

theorem Seg.blank (decls : List VarDecl) (s : Mem) : Seg decls [0x0A] s s := ⟨[], fun _ _ => Reads.blank _, rfl⟩

/-- An assignment statement. -/
theorem assign_seg {decls : List VarDecl} {x t : GoStr} {v : Val} {d : VarDecl} {s : Mem} (hx : GoIdent x)
    (ht : Builds (fun y => alookup y s.vars) t v) (hd : decls.find? (fun d => decide (d.name = x)) = some d) (hty : typeOk d v = true) :
    Seg decls (b! "\n" ++ x ++ b! " = " ++ t) s { s with vars := ainsert x v s.vars } := by
  obtain ⟨_, _, _, ks, e, hl, ho, _, he⟩ := ht
  have h1 : LexN (b! " = ") [.op 0x3D] false := fun _ _ => rfl
  have h2 := hx.lex.thenE (c := 0x20) (by decide) (h1.appendE hl)
  have et : b! "\n" ++ x ++ b! " = " ++ t = 0x0A :: (x ++ (b! " = " ++ t)) := by simp
  refine ⟨[.assign x e], fun dd st => ?_, ?_⟩
  · rw [et]
    refine Reads.line h2 ?_
    rw [show ([Tok.ident x] ++ ([Tok.op 0x3D] ++ ks)) ++ [Tok.op 0x3B] = [Tok.ident x, Tok.op 0x3D] ++ (ks ++ [Tok.op 0x3B]) by simp,
      parseRun_append]
    have hp : parseRun ⟨dd, st, .body⟩ [.ident x, .op 0x3D] = ⟨dd, st, .want (some x) []⟩ := by
      simp [parseRun, parseStep, stepWant, hx.notKw, stepHave, reduceUnary]
    rw [hp, parseRun_append, ho]
    rfl
  · have hn : isNewMap e = false := by
      cases hb : isNewMap e with
      | false => rfl
      | true =>
        exfalso
        unfold isNewMap at hb
        split at hb
        · simp [eval] at he
        · simp at hb
    simp [execAll, exec, hd, hn, he, hty]

/-- The allocation of the constraint map. -/
theorem newMap_seg {decls : List VarDecl} {d : VarDecl} {s : Mem} (hd : decls.find? (fun d => decide (d.name = b! "M")) = some d)
    (hty : typeOk d (.cmap s.maps.length) = true) :
    Seg decls (b! "\nM = &jsval.ConstraintMap{}") s { vars := ainsert (b! "M") (.cmap s.maps.length) s.vars, maps := s.maps ++ [[]] } := by
  refine ⟨[.assign (b! "M") (.unary 0x26 (.lit false (.sel (.ident (b! "jsval")) (b! "ConstraintMap")) []))], fun dd st => ?_, ?_⟩
  · exact Reads.line (body := b! "M = &jsval.ConstraintMap{}") (ks := [.ident (b! "M"), .op 0x3D, .op 0x26, .ident (b! "jsval"), .op 0x2E,
      .ident (b! "ConstraintMap"), .op 0x7B, .op 0x7D]) (fun _ _ => ⟨rfl, rfl⟩) rfl
  · have hn : isNewMap (.unary 0x26 (.lit false (.sel (.ident (b! "jsval")) (b! "ConstraintMap")) [])) = true := by decide
    simp only [execAll, exec, hd, hn, if_true, hty]
    rfl

theorem eval_ident {ρ : GoStr → Option Val} {x : GoStr} (h1 : x ≠ b! "true") (h2 : x ≠ b! "false") : eval ρ (.ident x) = ρ x := by
  rw [eval, if_neg h1, if_neg h2]

/-- The registration of a constraint. -/
theorem setRef_seg {isPrint : Nat → Bool} {decls : List VarDecl} {n x : GoStr} {c : Constraint} {m : Nat} {s : Mem} (hx : GoIdent x)
    (hx1 : x ≠ b! "true") (hx2 : x ≠ b! "false") (hM : alookup (b! "M") s.vars = some (.cmap m)) (hv : alookup x s.vars = some (.con c)) :
    Seg decls (b! "\nM.SetReference(" ++ goQuote isPrint n ++ b! ", " ++ x ++ b! ")") s
      { s with maps := s.maps.modify m (fun t => ainsert n c t) } := by
  refine ⟨[.expr (.call (.sel (.ident (b! "M")) (b! "SetReference")) [.str n, .ident x])], fun dd st => ?_, ?_⟩
  · have h1 : LexN (b! "M.SetReference(") [.ident (b! "M"), .op 0x2E, .ident (b! "SetReference"), .op 0x28] false := fun _ _ => rfl
    have h2 : LexN (goQuote isPrint n) [.str n] true := fun out semi => lexRun_quote n
    have h3 : LexN (b! ", ") [.op 0x2C] false := fun _ _ => rfl
    have h4 := hx.lex.thenN (c := 0x29) (by decide) lexN_close
    have h5 := h1.append (h2.append (h3.append h4))
    have e : b! "\nM.SetReference(" ++ goQuote isPrint n ++ b! ", " ++ x ++ b! ")" =
        0x0A :: (b! "M.SetReference(" ++ (goQuote isPrint n ++ (b! ", " ++ (x ++ [0x29])))) := by simp
    rw [e]
    refine Reads.line h5.toE ?_
    simp only [List.cons_append, List.nil_append, List.append_assoc]
    simp [parseRun, parseStep, stepWant, hx.notKw, stepHave, reduceUnary, show (b! "M") ∉ keywords by decide]
  · have e1 : eval (fun y => alookup y s.vars) (.ident (b! "M")) = some (.cmap m) := by rw [eval_ident (by decide) (by decide)]; exact hM
    have e2 : eval (fun y => alookup y s.vars) (.ident x) = some (.con c) := by rw [eval_ident hx1 hx2]; exact hv
    have e3 : evalArgs (fun y => alookup y s.vars) [.str n, .ident x] = some [.str n, .con c] := by
      rw [evalArgs, evalArgs, evalArgs, e2]; rfl
    simp [execAll, exec, e1, e3]

end Jsval
