import Verif.Lemmas.Directives
import Verif.Props.Generator
/-!
# C71, exactly

Which strings come back from generated code as they were: those without `%`, and no others.
-/
namespace Jsval
open Go

variable {isPrint : Nat → Bool}

/-- What can be read where a quoted string was the argument of a call. -/
theorem read_becomes {pre post M s : GoStr} (hpre : (0x25 : UInt8) ∉ pre) (hpost : post = b! ")" ∨ post = b! ",)")
    (hl : LexN pre [.ident (b! "jsval"), .op 0x2E, .ident (b! "String"), .op 0x28, .op 0x29, .op 0x2E, .ident M, .op 0x28] false)
    {e : Expr} {v : Val} (hp : Go.parseExpr (fmtText (pre ++ goQuote isPrint s ++ post)) = some e) (hv : eval (fun _ => none) e = some v) :
    ∃ t, Rewrites s t ∧ e = .call (.sel (.call (.sel (.ident (b! "jsval")) (b! "String")) []) M) [.str t] := by
  obtain ⟨x, hx, ht⟩ := fmtText_becomes (isPrint := isPrint) (post := post) hpre (by rcases hpost with rfl | rfl <;> simp)
    (by rcases hpost with rfl | rfl <;> simp) (by rcases hpost with rfl | rfl <;> simp) s
  rw [ht] at hp
  have hbad : ∀ (out semi) (y : GoStr), lexRun ⟨out, .bad, semi⟩ y = ⟨out, .bad, semi⟩ := by
    intro out semi y
    induction y with
    | nil => rfl
    | cons c y ih => rw [lexRun_cons]; exact ih
  cases hx with
  | other t h =>
    refine ⟨t, h, ?_⟩
    have e1 : pre ++ 0x22 :: inQuote isPrint post t = pre ++ (goQuote isPrint t ++ post) := by
      rw [goQuote_body]; unfold inQuote; simp
    have hlex : lex (pre ++ 0x22 :: inQuote isPrint post t) = some ([.ident (b! "jsval"), .op 0x2E, .ident (b! "String"), .op 0x28, .op 0x29, .op 0x2E, .ident M,
        .op 0x28, .str t] ++ (if post = b! ")" then [.op 0x29, .op 0x3B] else [.op 0x2C, .op 0x29, .op 0x3B])) := by
      unfold lex
      rw [e1, lexRun_append, lexRun_append, hl, lexRun_quote]
      rcases hpost with rfl | rfl <;> rfl
    unfold Go.parseExpr at hp
    rw [hlex] at hp
    rcases hpost with rfl | rfl <;> exact (Option.some.inj hp).symm
  | escape a y ha =>
    exfalso
    have hlex : lex (pre ++ 0x22 :: (a ++ 0x5C :: 0x28 :: y)) = none := by
      unfold lex
      rw [lexRun_append, hl, lexRun_cons]
      obtain ⟨acc, hacc⟩ := ha ([.ident (b! "jsval"), .op 0x2E, .ident (b! "String"), .op 0x28, .op 0x29, .op 0x2E, .ident M, .op 0x28].reverse ++ []) [] false
      have e2 : ∀ out, lexStep ⟨out, .normal, false⟩ 0x22 = ⟨out, .str [], false⟩ := fun _ => rfl
      rw [e2, lexRun_append, hacc, lexRun_cons, lexRun_cons]
      have e3 : ∀ out, lexStep (lexStep ⟨out, .str acc, false⟩ 0x5C) 0x28 = ⟨out, .bad, false⟩ := fun _ => rfl
      rw [e3, hbad]
      rfl
    unfold Go.parseExpr at hp
    rw [hlex] at hp
    cases hp
  | call a w ha hw =>
    exfalso
    obtain ⟨acc, hacc⟩ := ha ([.ident (b! "jsval"), .op 0x2E, .ident (b! "String"), .op 0x28, .op 0x29, .op 0x2E, .ident M, .op 0x28].reverse ++ []) [] false
    have e2 : ∀ out, lexStep ⟨out, .normal, false⟩ 0x22 = ⟨out, .str [], false⟩ := fun _ => rfl
    have hlex : lex (pre ++ 0x22 :: (a ++ 0x22 :: (w ++ post))) = some ([.ident (b! "jsval"), .op 0x2E, .ident (b! "String"), .op 0x28, .op 0x29, .op 0x2E, .ident M,
        .op 0x28, .str acc, .op 0x28, .ident (if w = b! "(MISSING)" then b! "MISSING" else b! "BADINDEX"), .op 0x29] ++
        (if post = b! ")" then [.op 0x29, .op 0x3B] else [.op 0x2C, .op 0x29, .op 0x3B])) := by
      unfold lex
      rw [lexRun_append, hl, lexRun_cons, e2, lexRun_append, hacc]
      rcases hpost with rfl | rfl <;> rcases hw with rfl | rfl <;> rfl
    unfold Go.parseExpr at hp
    rw [hlex] at hp
    have he : ∃ i, e = .call (.sel (.call (.sel (.ident (b! "jsval")) (b! "String")) []) M) [.call (.str acc) [.ident i]] := by
      rcases hpost with rfl | rfl <;> rcases hw with rfl | rfl
      all_goals exact ⟨_, (Option.some.inj (show some _ = some e from hp)).symm⟩
    obtain ⟨i, rfl⟩ := he
    have h1 : eval (fun _ => none) (.call (.str acc) [.ident i]) = none := rfl
    rw [eval, evalArgs, h1] at hv
    cases hv
  | «open» _ ha =>
    exfalso
    have hlex : lex (pre ++ 0x22 :: x) = none := by
      unfold lex
      rw [lexRun_append, hl, lexRun_cons]
      obtain ⟨acc, hacc⟩ := ha ([.ident (b! "jsval"), .op 0x2E, .ident (b! "String"), .op 0x28, .op 0x29, .op 0x2E, .ident M, .op 0x28].reverse ++ []) [] false
      have e2 : ∀ out, lexStep ⟨out, .normal, false⟩ 0x22 = ⟨out, .str [], false⟩ := fun _ => rfl
      rw [e2, hacc]
      rfl
    unfold Go.parseExpr at hp
    rw [hlex] at hp
    cases hp

/-- The call that sets a string. -/
def Place.method : Place → GoStr
  | .format => b! "Format"
  | .pattern => b! "RegexpString"
  | .listed => b! "Enum"
  | .dflt => b! "Default"

/-- What follows the string. -/
def Place.after : Place → GoStr
  | .listed => b! ",)"
  | _ => b! ")"

theorem gen_holding (p : Place) {s : GoStr} (h : p = .format → s ≠ []) (σ : Sched) : gen isPrint [] (p.holding s) σ =
    .ok (fmtText (b! "jsval.String()." ++ p.method ++ b! "(" ++ goQuote isPrint s ++ p.after)) := by
  have key : ∀ (c : StrC) (t : GoStr), genString isPrint c = .ok t → ¬ b! ".\n" <:+ t → gen isPrint [] (.string c) σ = .ok (fmtText t) := by
    intro c t h1 h2
    rw [gen, h1]
    show Except.ok (fmtText (trimDotNl t)) = _
    rw [trimDotNl_plain h2]
  have hend : ∀ x : GoStr, ¬ b! ".\n" <:+ x ++ p.after := by
    rintro x ⟨y, hy⟩
    have := congrArg (fun l => l.reverse.head?) hy
    cases p <;> simp [Place.after] at this
  cases p with
  | format =>
    have hs := h rfl
    refine key _ _ ?_ (hend _)
    simp [genString, String', optCall, catG, hs, Place.method, Place.after]
  | pattern =>
    refine key _ _ ?_ (hend _)
    simp [genString, String', optCall, catG, Place.method, Place.after]
  | listed =>
    refine key _ _ ?_ (hend _)
    simp [genString, String', optCall, genEnumList, genEnumVal, catG, Place.method, Place.after]
  | dflt =>
    refine key _ _ ?_ (hend _)
    simp [genString, String', optCall, catG, Place.method, Place.after]

/-- What comes back from the text written for a string, if it is an expression at all. -/
theorem generates_holding {p : Place} {s : GoStr} (h : p = .format → s ≠ []) {σ : Sched} {c' : Constraint} (hg : Generates isPrint (p.holding s) σ c') :
    ∃ t, Rewrites s t ∧ c' = p.holding t := by
  obtain ⟨t, e, h1, h2, h3⟩ := hg
  rw [gen_holding p h] at h1
  cases h1
  obtain ⟨t, ht, rfl⟩ := read_becomes (M := p.method) (by cases p <;> decide) (by cases p <;> simp [Place.after])
    (by cases p <;> exact fun _ _ => rfl) h2 h3
  refine ⟨t, ht, ?_⟩
  cases p
  · exact (Val.con.inj (Option.some.inj (show some (Val.con (Place.format.holding t)) = some (Val.con c') from h3))).symm
  · exact (Val.con.inj (Option.some.inj (show some (Val.con (Place.pattern.holding t)) = some (Val.con c') from h3))).symm
  · exact (Val.con.inj (Option.some.inj (show some (Val.con (Place.listed.holding t)) = some (Val.con c') from h3))).symm
  · exact (Val.con.inj (Option.some.inj (show some (Val.con (Place.dflt.holding t)) = some (Val.con c') from h3))).symm

/-- C71, exactly: a string is written verbatim in the code for a string constraint, as a format, a pattern, a listed value
or a default, if and only if it has no `%`. -/
theorem C71_verbatim (p : Place) (s : GoStr) (σ : Sched) : Generates isPrint (p.holding s) σ (p.holding s) ↔ Plain s := by
  constructor
  · intro hg hp
    have hs : s ≠ [] := by rintro rfl; cases hp
    obtain ⟨t, ht, e⟩ := generates_holding (fun _ => hs) hg
    refine ht.changes hp ?_
    cases p <;> simpa [Place.holding] using e
  · intro hp
    have hc : (p.holding s).Every (Constraint.Gen false) := by
      cases p
      · exact .intro ⟨hp, by simp [String'], by simp [String'], by simp [String']⟩ (by simp [Constraint.kids, Place.holding])
      · exact .intro ⟨by simp [Plain, String'], by rintro _ ⟨⟩; exact hp, by simp [String'], by simp [String']⟩ (by simp [Constraint.kids, Place.holding])
      · refine .intro ⟨by simp [Plain, String'], by simp [String'], ?_, by simp [String']⟩ (by simp [Constraint.kids, Place.holding])
        rintro _ ⟨⟩
        exact ⟨by simp [String'], fun v hv => by rw [List.mem_singleton] at hv; subst hv; exact hp⟩
      · exact .intro ⟨by simp [Plain, String'], by simp [String'], by simp [String'], by rintro _ ⟨⟩; exact ⟨s, rfl, hp⟩⟩ (by simp [Constraint.kids, Place.holding])
    obtain ⟨t, ht, hb⟩ := gen_builds (ρ := fun _ => none) (isPrint := isPrint) (cm := []) (refs := false) (m := 0) (by simp) _ hc σ
    obtain ⟨e', h1, h2⟩ := hb.parseExpr
    refine ⟨t, e', ht, h1, ?_⟩
    rw [h2]
    cases p <;> rfl

/-- Not vacuous: an operand taken from nowhere, an index, a number without end, a verb outside ASCII, a verb at the end. -/
example (p : Place) (σ : Sched) : ¬ Generates isPrint (p.holding (b! "%*d")) σ (p.holding (b! "%*d")) ∧
    ¬ Generates isPrint (p.holding (b! "a%[1]s%%")) σ (p.holding (b! "a%[1]s%%")) ∧
    ¬ Generates isPrint (p.holding (b! "%123456789d")) σ (p.holding (b! "%123456789d")) ∧
    ¬ Generates isPrint (p.holding (b! "50 %é")) σ (p.holding (b! "50 %é")) ∧
    ¬ Generates isPrint (p.holding (b! "100%")) σ (p.holding (b! "100%")) ∧
    Generates isPrint (p.holding (b! "100 percent")) σ (p.holding (b! "100 percent")) := by
  simp only [C71_verbatim]
  simp [Plain]

/-- C71, for what the generated code does: a listed string survives if and only if it has no `%`. -/
theorem C71_listed (ext : Ext) (s : GoStr) : Survives ext isPrint (Place.listed.holding s) ↔ Plain s := by
  constructor
  · intro hs hp
    obtain ⟨c', hg, -⟩ := hs sched0 noMaps
    obtain ⟨t, ht, rfl⟩ := generates_holding (by simp) hg
    refine not_survives (isPrint := isPrint) (ext := ext) (r := .ok) (v := .str t) hg (by simp) (v' := .str t) ?_ ?_ hs
    · show (strCheck ext { String' with enums := some [.str _] } (.str _), _) = _
      rw [strCheck_listed, if_pos rfl]
    · intro σ fuel h
      have h : strCheck ext { String' with enums := some [.str _] } (.str _) = _ := congrArg Prod.fst h
      rw [strCheck_listed, if_neg (ht.changes hp)] at h
      cases h
  · intro hp
    refine C69_constraint ext (.intro ⟨by simp [Plain, String'], by simp [String'], ?_, by simp [String']⟩ (by simp [Constraint.kids, Place.holding]))
    rintro _ ⟨⟩
    exact ⟨by simp [String'], fun v hv => by rw [List.mem_singleton] at hv; subst hv; exact hp⟩

example (ext : Ext) : ¬ Survives ext isPrint (Place.listed.holding (b! "%[2]*[1]d of 100%")) ∧
    Survives ext isPrint (Place.listed.holding (b! "2 of 100")) := by
  simp only [C71_listed]
  simp [Plain]

end Jsval
