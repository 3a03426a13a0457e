import Verif.Spec.GoSyntax
/-!
# Comparing programs
-/
namespace Jsval
open Go

mutual
/-- The expressions are the same. -/
def Go.Expr.same : Expr → Expr → Bool
  | .ident a, .ident b => decide (a = b)
  | .int a, .int b => decide (a = b)
  | .flt a b, .flt c d => decide (a = c) && decide (b = d)
  | .str a, .str b => decide (a = b)
  | .unary a e, .unary b f => decide (a = b) && Go.Expr.same e f
  | .sel e a, .sel f b => decide (a = b) && Go.Expr.same e f
  | .call e l, .call f m => Go.Expr.same e f && sameExprs l m
  | .lit a e l, .lit b f m => decide (a = b) && Go.Expr.same e f && sameExprs l m
  | _, _ => false
/-- … lists of them -/
def sameExprs : List Expr → List Expr → Bool
  | [], [] => true
  | e :: l, f :: m => Go.Expr.same e f && sameExprs l m
  | _, _ => false
end

mutual
theorem Go.Expr.eq_of_same : ∀ {a b : Expr}, Go.Expr.same a b = true → a = b
  | .ident a, b, h => by cases b <;> simp_all [Go.Expr.same]
  | .int a, b, h => by cases b <;> simp_all [Go.Expr.same]
  | .flt a b, c, h => by cases c <;> simp_all [Go.Expr.same]
  | .str a, b, h => by cases b <;> simp_all [Go.Expr.same]
  | .unary a e, b, h => by
    cases b with
    | unary b f => simp only [Go.Expr.same, Bool.and_eq_true, decide_eq_true_eq] at h; rw [h.1, Go.Expr.eq_of_same h.2]
    | _ => simp [Go.Expr.same] at h
  | .sel e a, b, h => by
    cases b with
    | sel f b => simp only [Go.Expr.same, Bool.and_eq_true, decide_eq_true_eq] at h; rw [h.1, Go.Expr.eq_of_same h.2]
    | _ => simp [Go.Expr.same] at h
  | .call e l, b, h => by
    cases b with
    | call f m => simp only [Go.Expr.same, Bool.and_eq_true] at h; rw [Go.Expr.eq_of_same h.1, eq_of_sameExprs h.2]
    | _ => simp [Go.Expr.same] at h
  | .lit a e l, b, h => by
    cases b with
    | lit b f m => simp only [Go.Expr.same, Bool.and_eq_true, decide_eq_true_eq] at h; rw [h.1.1, Go.Expr.eq_of_same h.1.2, eq_of_sameExprs h.2]
    | _ => simp [Go.Expr.same] at h
theorem eq_of_sameExprs : ∀ {l m : List Expr}, sameExprs l m = true → l = m
  | [], m, h => by cases m <;> simp_all [sameExprs]
  | e :: l, m, h => by
    cases m with
    | nil => simp [sameExprs] at h
    | cons f m => simp only [sameExprs, Bool.and_eq_true] at h; rw [Go.Expr.eq_of_same h.1, eq_of_sameExprs h.2]
end

/-- The statements are the same. -/
def Go.Stmt.same : Stmt → Stmt → Bool
  | .assign x e, .assign y f => decide (x = y) && e.same f
  | .expr e, .expr f => e.same f
  | _, _ => false

theorem Go.Stmt.eq_of_same {a b : Stmt} (h : a.same b = true) : a = b := by
  cases a <;> cases b <;> simp only [Go.Stmt.same, Bool.and_eq_true, decide_eq_true_eq, Bool.false_eq_true] at h
  · rw [h.1, Go.Expr.eq_of_same h.2]
  · rw [Go.Expr.eq_of_same h]

/-- … lists of them -/
def sameStmts : List Stmt → List Stmt → Bool
  | [], [] => true
  | e :: l, f :: m => e.same f && sameStmts l m
  | _, _ => false

theorem eq_of_sameStmts : ∀ {l m : List Stmt}, sameStmts l m = true → l = m
  | [], m, h => by cases m <;> simp_all [sameStmts]
  | e :: l, m, h => by
    cases m with
    | nil => simp [sameStmts] at h
    | cons f m => simp only [sameStmts, Bool.and_eq_true] at h; rw [Go.Stmt.eq_of_same h.1, eq_of_sameStmts h.2]

/-- Both are there and are the same. -/
def sameProg : Option Prog → Option Prog → Bool
  | some p, some q => decide (p.decls = q.decls) && sameStmts p.stmts q.stmts
  | _, _ => false

theorem eq_of_sameProg {p q : Option Prog} (h : sameProg p q = true) : p = q := by
  rcases p with _ | ⟨d, s⟩ <;> rcases q with _ | ⟨d', s'⟩ <;> simp only [sameProg, Bool.and_eq_true, decide_eq_true_eq, Bool.false_eq_true] at h
  rw [h.1, eq_of_sameStmts h.2]

end Jsval
