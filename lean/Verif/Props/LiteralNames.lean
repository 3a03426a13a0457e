import Verif.Props.Literals
import Verif.Spec.NamePlaces
/-!
# C71, exactly, for names

Names of properties, sources of patterns and names of references come back from generated code as they were if they have no
`%`, and only then.
-/
namespace Jsval
open Go

variable {isPrint : Nat → Bool}

/-- What can be read from a text with one quoted string, if the rest of the text stays as it is. -/
theorem read_slot {pre post s : GoStr} {P Q : List Tok} {E : Expr → Expr} {ρ : GoStr → Option Val}
    (hpre : (0x25 : UInt8) ∉ pre) (h0 : post ≠ []) (h1 : (0x5D : UInt8) ∉ post) (h2 : (0x25 : UInt8) ∉ post)
    (hl : LexN pre P false)
    (hq : ∀ out, lexStep (lexRun ⟨out, .normal, true⟩ post) 0x0A = ⟨Q.reverse ++ out, .normal, false⟩)
    (hE : ∀ t, parseRun ⟨[], [], .want none []⟩ (P ++ .str t :: Q) = ⟨[], [.expr (E (.str t))], .body⟩)
    (hE' : ∀ t i, (i = b! "MISSING" ∨ i = b! "BADINDEX") → parseRun ⟨[], [], .want none []⟩ (P ++ .str t :: .op 0x28 :: .ident i :: .op 0x29 :: Q) =
      ⟨[], [.expr (E (.call (.str t) [.ident i]))], .body⟩)
    (hno : ∀ t i, eval ρ (E (.call (.str t) [.ident i])) = none)
    {e : Expr} {v : Val} (hp : Go.parseExpr (fmtText (pre ++ goQuote isPrint s ++ post)) = some e) (hv : eval ρ e = some v) :
    ∃ t, Rewrites s t ∧ e = E (.str t) := by
  obtain ⟨x, hx, ht⟩ := fmtText_becomes (isPrint := isPrint) (post := post) hpre h0 h1 h2 s
  rw [ht] at hp
  have hbad : ∀ (out semi) (y : GoStr), lexRun ⟨out, .bad, semi⟩ y = ⟨out, .bad, semi⟩ := by
    intro out semi y
    induction y with
    | nil => rfl
    | cons c y ih => rw [lexRun_cons]; exact ih
  have e2 : ∀ out, lexStep ⟨out, .normal, false⟩ 0x22 = ⟨out, .str [], false⟩ := fun _ => rfl
  cases hx with
  | other t h =>
    refine ⟨t, h, ?_⟩
    have e1 : pre ++ 0x22 :: inQuote isPrint post t = pre ++ (goQuote isPrint t ++ post) := by
      rw [goQuote_body]; unfold inQuote; simp
    have hlex : lex (pre ++ 0x22 :: inQuote isPrint post t) = some (P ++ .str t :: Q) := by
      unfold lex
      rw [e1, lexRun_append, lexRun_append, hl, lexRun_quote, hq]
      simp
    unfold Go.parseExpr at hp
    rw [hlex] at hp
    simp only [hE] at hp
    exact (Option.some.inj hp).symm
  | escape a y ha =>
    exfalso
    have hlex : lex (pre ++ 0x22 :: (a ++ 0x5C :: 0x28 :: y)) = none := by
      unfold lex
      rw [lexRun_append, hl, lexRun_cons]
      obtain ⟨acc, hacc⟩ := ha (P.reverse ++ []) [] false
      rw [e2, lexRun_append, hacc, lexRun_cons, lexRun_cons]
      have e3 : ∀ out, lexStep (lexStep ⟨out, .str acc, false⟩ 0x5C) 0x28 = ⟨out, .bad, false⟩ := fun _ => rfl
      rw [e3, hbad]
      rfl
    unfold Go.parseExpr at hp
    rw [hlex] at hp
    cases hp
  | call a w ha hw =>
    exfalso
    obtain ⟨acc, hacc⟩ := ha (P.reverse ++ []) [] false
    have hlex : lex (pre ++ 0x22 :: (a ++ 0x22 :: (w ++ post))) =
        some (P ++ .str acc :: .op 0x28 :: .ident (if w = b! "(MISSING)" then b! "MISSING" else b! "BADINDEX") :: .op 0x29 :: Q) := by
      unfold lex
      rw [lexRun_append, hl, lexRun_cons, e2, lexRun_append, hacc]
      have e4 : ∀ out semi, lexRun ⟨out, .str acc, semi⟩ (0x22 :: w) =
          ⟨.op 0x29 :: .ident (if w = b! "(MISSING)" then b! "MISSING" else b! "BADINDEX") :: .op 0x28 :: .str acc :: out, .normal, true⟩ := by
        intro out semi
        rcases hw with rfl | rfl <;> rfl
      rw [← List.cons_append, lexRun_append, e4, hq]
      simp
    unfold Go.parseExpr at hp
    rw [hlex] at hp
    have hi := hE' acc (if w = b! "(MISSING)" then b! "MISSING" else b! "BADINDEX") (by split <;> simp)
    simp only [hi] at hp
    cases hp
    rw [hno] at hv
    cases hv
  | «open» _ ha =>
    exfalso
    have hlex : lex (pre ++ 0x22 :: x) = none := by
      unfold lex
      rw [lexRun_append, hl, lexRun_cons]
      obtain ⟨acc, hacc⟩ := ha (P.reverse ++ []) [] false
      rw [e2, hacc]
      rfl
    unfold Go.parseExpr at hp
    rw [hlex] at hp
    cases hp

/-- What is written before the name. -/
def NamePlace.before (isPrint : Nat → Bool) : NamePlace → GoStr
  | .prop => b! "jsval.Object().\nAddProp(\n"
  | .req => b! "jsval.Object().\nRequired("
  | .pat => b! "jsval.Object().\nPatternPropertiesString(\n"
  | .dependent => b! "jsval.Object().\nPropDependency("
  | .dependency => b! "jsval.Object().\nPropDependency(" ++ goQuote isPrint (b! "x") ++ b! ", "

/-- What is written after the name. -/
def NamePlace.after (isPrint : Nat → Bool) : NamePlace → GoStr
  | .prop => b! ",\njsval.EmptyConstraint,\n)"
  | .req => b! ")"
  | .pat => b! ",\njsval.EmptyConstraint,\n)"
  | .dependent => b! ", " ++ goQuote isPrint (b! "x") ++ b! ")"
  | .dependency => b! ")"

theorem goQuote_x : goQuote isPrint (b! "x") = b! "\"x\"" := by
  rw [goQuote_body, show b! "x" = b! "x" ++ [] from rfl, quoteBody_bares isPrint [] (b! "x") (by simp [Bare])]
  rfl

theorem gen_named (p : NamePlace) (s : GoStr) (σ : Sched) : gen isPrint [] (p.holding s) σ =
    .ok (fmtText (p.before isPrint ++ goQuote isPrint s ++ p.after isPrint)) := by
  have key : ∀ (o : ObjC Constraint) (t : GoStr), genObject isPrint (genObj isPrint [] o) σ = .ok t → ¬ b! ".\n" <:+ t →
      gen isPrint [] (.object o) σ = .ok (fmtText t) := by
    intro c t h1 h2
    rw [gen]
    show emitCode _ = _
    rw [h1]
    show Except.ok (fmtText (trimDotNl t)) = _
    rw [trimDotNl_plain h2]
  have hend : ∀ x : GoStr, ¬ b! ".\n" <:+ x ++ p.after isPrint := by
    rintro x ⟨y, hy⟩
    have := congrArg (fun l => l.reverse.head?) hy
    cases p <;> simp [NamePlace.after] at this
  have hempty : gen isPrint [] .empty = fun _ => .ok (b! "jsval.EmptyConstraint") := by
    funext σ
    rw [gen]
    show emitCode _ = _
    rfl
  cases p <;> refine key _ _ ?_ (hend _)
  all_goals simp [genObject, genObj, genOpt, genProps, genPats, genSub, genNamed, genDeps, Object', ObjC.AddProp, ObjC.Required, ObjC.PatternProperties, ObjC.PropDependency,
    shuffle, insertAt, sortStrings, ppmap, ainsert, alookup, commaSep, catG, NamePlace.before, NamePlace.after, hempty, addName, patInsert, ObjC.GetPropDependencies]

/-- What comes back from the text written for a name, if it is an expression at all. -/
theorem generates_named {p : NamePlace} {s : GoStr} {σ : Sched} {c' : Constraint} (hg : Generates isPrint (p.holding s) σ c') :
    ∃ t, Rewrites s t ∧ c' = p.holding t := by
  obtain ⟨t, e, h1, h2, h3⟩ := hg
  rw [gen_named p] at h1
  cases h1
  let obj : Expr := .call (.sel (.ident (b! "jsval")) (b! "Object")) []
  let O : List Tok := [.ident (b! "jsval"), .op 0x2E, .ident (b! "Object"), .op 0x28, .op 0x29, .op 0x2E]
  let em : Expr := .sel (.ident (b! "jsval")) (b! "EmptyConstraint")
  let emt : List Tok := [.op 0x2C, .ident (b! "jsval"), .op 0x2E, .ident (b! "EmptyConstraint"), .op 0x2C, .op 0x29, .op 0x3B]
  cases p with
  | prop =>
    simp only [NamePlace.before, NamePlace.after, goQuote_x] at h2
    obtain ⟨t, ht, rfl⟩ := read_slot (P := O ++ [.ident (b! "AddProp"), .op 0x28]) (Q := emt)
      (E := fun x => .call (.sel obj (b! "AddProp")) [x, em])
      (by decide) (by decide) (by decide) (by decide) (fun _ _ => rfl) (fun _ => rfl) (fun _ => rfl) (by rintro _ _ (rfl | rfl) <;> rfl) (fun _ _ => rfl) h2 h3
    exact ⟨t, ht, (Val.con.inj (Option.some.inj (show some (Val.con (NamePlace.prop.holding t)) = some (Val.con c') from h3))).symm⟩
  | req =>
    simp only [NamePlace.before, NamePlace.after, goQuote_x] at h2
    obtain ⟨t, ht, rfl⟩ := read_slot (P := O ++ [.ident (b! "Required"), .op 0x28]) (Q := [.op 0x29, .op 0x3B])
      (E := fun x => .call (.sel obj (b! "Required")) [x])
      (by decide) (by decide) (by decide) (by decide) (fun _ _ => rfl) (fun _ => rfl) (fun _ => rfl) (by rintro _ _ (rfl | rfl) <;> rfl) (fun _ _ => rfl) h2 h3
    exact ⟨t, ht, (Val.con.inj (Option.some.inj (show some (Val.con (NamePlace.req.holding t)) = some (Val.con c') from h3))).symm⟩
  | pat =>
    simp only [NamePlace.before, NamePlace.after, goQuote_x] at h2
    obtain ⟨t, ht, rfl⟩ := read_slot (P := O ++ [.ident (b! "PatternPropertiesString"), .op 0x28]) (Q := emt)
      (E := fun x => .call (.sel obj (b! "PatternPropertiesString")) [x, em])
      (by decide) (by decide) (by decide) (by decide) (fun _ _ => rfl) (fun _ => rfl) (fun _ => rfl) (by rintro _ _ (rfl | rfl) <;> rfl) (fun _ _ => rfl) h2 h3
    exact ⟨t, ht, (Val.con.inj (Option.some.inj (show some (Val.con (NamePlace.pat.holding t)) = some (Val.con c') from h3))).symm⟩
  | dependent =>
    simp only [NamePlace.before, NamePlace.after, goQuote_x] at h2
    obtain ⟨t, ht, rfl⟩ := read_slot (P := O ++ [.ident (b! "PropDependency"), .op 0x28]) (Q := [.op 0x2C, .str (b! "x"), .op 0x29, .op 0x3B])
      (E := fun x => .call (.sel obj (b! "PropDependency")) [x, .str (b! "x")])
      (by decide) (by decide) (by decide) (by decide) (fun _ _ => rfl) (fun _ => rfl) (fun _ => rfl) (by rintro _ _ (rfl | rfl) <;> rfl) (fun _ _ => rfl) h2 h3
    exact ⟨t, ht, (Val.con.inj (Option.some.inj (show some (Val.con (NamePlace.dependent.holding t)) = some (Val.con c') from h3))).symm⟩
  | dependency =>
    simp only [NamePlace.before, NamePlace.after, goQuote_x] at h2
    obtain ⟨t, ht, rfl⟩ := read_slot (P := O ++ [.ident (b! "PropDependency"), .op 0x28, .str (b! "x"), .op 0x2C]) (Q := [.op 0x29, .op 0x3B])
      (E := fun x => .call (.sel obj (b! "PropDependency")) [.str (b! "x"), x])
      (by decide) (by decide) (by decide) (by decide) (fun _ _ => rfl) (fun _ => rfl) (fun _ => rfl) (by rintro _ _ (rfl | rfl) <;> rfl) (fun _ _ => rfl) h2 h3
    exact ⟨t, ht, (Val.con.inj (Option.some.inj (show some (Val.con (NamePlace.dependency.holding t)) = some (Val.con c') from h3))).symm⟩

theorem NamePlace.gen_plain (p : NamePlace) {s : GoStr} (hp : Plain s) : (p.holding s).Every (Constraint.Gen false) := by
  have hx : Plain (b! "x") := by simp [Plain]
  cases p <;> refine .intro ?_ (by simp [Constraint.kids, NamePlace.holding, Object', alookup, ObjC.AddProp, ObjC.Required, ObjC.PatternProperties, ObjC.PropDependency,
    ainsert, addName, patInsert, ObjC.GetPropDependencies]; try exact .intro trivial (by simp [Constraint.kids]))
  all_goals
    constructor <;> simp [Object', alookup,  ObjC.AddProp, ObjC.Required, ObjC.PatternProperties, ObjC.PropDependency, ainsert, addName, patInsert, ObjC.GetPropDependencies, hp, hx]

/-- C71, exactly, for names: the name of a property, of a required property, of either side of a dependency, or the source of
a pattern for names, is written verbatim if and only if it has no `%`. -/
theorem C71_names (p : NamePlace) (s : GoStr) (σ : Sched) : Generates isPrint (p.holding s) σ (p.holding s) ↔ Plain s := by
  constructor
  · intro hg hp
    obtain ⟨t, ht, e⟩ := generates_named hg
    refine ht.changes hp ?_
    cases p <;> simpa [NamePlace.holding, Object', alookup, ObjC.AddProp, ObjC.Required, ObjC.PatternProperties, ObjC.PropDependency,
      ainsert, addName, patInsert, ObjC.GetPropDependencies] using e
  · intro hp
    obtain ⟨t, ht, hb⟩ := gen_builds (ρ := fun _ => none) (isPrint := isPrint) (cm := []) (refs := false) (m := 0) (by simp) _ (p.gen_plain hp) σ
    obtain ⟨e', h1, h2⟩ := hb.parseExpr
    refine ⟨t, e', ht, h1, ?_⟩
    rw [h2]
    cases p <;> simp [NamePlace.holding, rebuild, rebuildObj, rebuildOpt, rebuildProps, rebuildPats, sortedRows, rowsOf, depPairs, sortStrings, Object', ObjC.AddProp, ObjC.Required,
      ObjC.PatternProperties, ObjC.PropDependency, ainsert, alookup, addName, patInsert, ObjC.GetPropDependencies]

/-- Not vacuous: names as they are found in schemas. -/
example (p : NamePlace) (σ : Sched) : ¬ Generates isPrint (p.holding (b! "100%")) σ (p.holding (b! "100%")) ∧
    ¬ Generates isPrint (p.holding (b! "first%20name")) σ (p.holding (b! "first%20name")) ∧
    ¬ Generates isPrint (p.holding (b! "^%%$")) σ (p.holding (b! "^%%$")) ∧
    Generates isPrint (p.holding (b! "^x-")) σ (p.holding (b! "^x-")) := by
  simp only [C71_names]
  simp [Plain]

/-- An object with one property, against a declared one. -/
theorem one_prop (ext : Ext) (s k : GoStr) (fuel : Nat) (σ : Sched) :
    ((sem ext noMaps fuel (NamePlace.prop.holding s)).val σ (.map false [(k, .bool true)])).1 = .ok ↔ k = s := by
  simp only [sem, NamePlace.holding, denote, denoteObj, denoteProps, denotePats, denoteOpt, Object', ObjC.AddProp, ainsert]
  rw [objectV, show getPropNames (valueOf (.map false [(k, .bool true)])).indirect = .ok [k] from rfl]
  have hg : ∀ p, viewProp (valueOf (.map false [(k, .bool true)])).indirect p = .ok (if k = p then .present (.bool true) true else .absent) := by
    intro p
    rw [viewProp, show getProp (valueOf (.map false [(k, .bool true)])).indirect p = .ok (alookup p [(k, .bool true)]) from rfl, alookup]
    by_cases h : k = p <;> simp [h, alookup, valueOf, RV.indirect]
  by_cases h : k = s
  · subst h
    simp [objLoops, nameSet, addName, shuffle, insertAt, forLoop, propStep, hg, alookup, seqSt, addlPhase, depStep, ObjC.GetPropDependencies,
      ObjC.GetSchemaDependency, putProp]
  · simp [objLoops, nameSet, addName, shuffle, insertAt, forLoop, propStep, hg, alookup, seqSt, addlPhase, h, Sem.dflt, Ne.symm h]

/-- C71, for what the generated code does: the code for an object with one declared property behaves like the constraint if
and only if the name of the property has no `%`. -/
theorem C71_property (ext : Ext) (s : GoStr) : Survives ext isPrint (NamePlace.prop.holding s) ↔ Plain s := by
  constructor
  · intro hs hp
    obtain ⟨c', hg, -⟩ := hs sched0 noMaps
    obtain ⟨t, ht, rfl⟩ := generates_named hg
    rcases h1 : (sem ext noMaps 0 (NamePlace.prop.holding t)).val sched0 (.map false [(t, .bool true)]) with ⟨r, v'⟩
    have h2 := (one_prop ext t t 0 sched0).2 rfl
    rw [h1] at h2
    subst h2
    refine not_survives (isPrint := isPrint) (ext := ext) hg (by simp) h1 ?_ hs
    intro σ fuel h
    exact ht.changes hp ((one_prop ext s t fuel σ).1 (congrArg Prod.fst h)).symm
  · intro hp
    exact C69_constraint ext (NamePlace.prop.gen_plain hp)

/-- C71, exactly, for references: the expression for a reference refers to the same name if and only if the name has no
`%`. -/
theorem C71_reference (m : Nat) (s : GoStr) (σ : Sched) :
    (∃ t e, gen isPrint (b! "M") (.ref m s) σ = .ok t ∧ Go.parseExpr t = some e ∧
      eval (fun x => if x = b! "M" then some (.cmap m) else none) e = some (.con (.ref m s))) ↔ Plain s := by
  have hg : gen isPrint (b! "M") (.ref m s) σ = .ok (fmtText (b! "jsval.Reference(M).RefersTo(" ++ goQuote isPrint s ++ b! ")")) := by
    rw [gen]
    show Except.ok (fmtText (trimDotNl _)) = _
    rw [trimDotNl_plain]
    · rfl
    · rintro ⟨y, hy⟩
      have := congrArg (fun l => l.reverse.head?) hy
      simp at this
  constructor
  · rintro ⟨t, e, h1, h2, h3⟩ hp
    rw [hg] at h1
    cases h1
    obtain ⟨t, ht, rfl⟩ := read_slot (P := [.ident (b! "jsval"), .op 0x2E, .ident (b! "Reference"), .op 0x28, .ident (b! "M"), .op 0x29, .op 0x2E,
        .ident (b! "RefersTo"), .op 0x28]) (Q := [.op 0x29, .op 0x3B])
      (E := fun x => .call (.sel (.call (.sel (.ident (b! "jsval")) (b! "Reference")) [.ident (b! "M")]) (b! "RefersTo")) [x])
      (by decide) (by decide) (by decide) (by decide) (fun _ _ => rfl) (fun _ => rfl) (fun _ => rfl) (by rintro _ _ (rfl | rfl) <;> rfl) (fun _ _ => rfl) h2 h3
    refine ht.changes hp ?_
    have h4 : some (Val.con (.ref m t)) = some (Val.con (.ref m s)) := h3
    simpa using h4.symm
  · intro hp
    obtain ⟨t, ht, hb⟩ := gen_builds (ρ := fun x => if x = b! "M" then some (.cmap m) else none) (isPrint := isPrint) (cm := b! "M") (refs := true) (m := m) (ints := False)
      (by simp) (.ref m s) (.intro ⟨rfl, hp⟩ (by simp [Constraint.kids])) σ
    obtain ⟨e', h1, h2⟩ := hb.parseExpr
    exact ⟨t, e', ht, h1, h2⟩

/-- A validator that refers to a definition, by a name as it is written in URLs. -/
def exPercentRef : GenVal := ⟨b! "A", [(b! "#/definitions/a%20b", .empty)], some (.ref 0 (b! "#/definitions/a%20b")), fun _ => false⟩

set_option maxRecDepth 100000 in
/-- C71 fails for whole programs: the constraint is registered under the right name, but the reference refers to another one.
The generated validator rejects what the original accepts, which is everything. -/
theorem C71_reference_refuted : ∃ t p mem jv c', process (fun _ => true) [exPercentRef] sched0 = .ok t ∧ parseProg t = some p ∧
    p.run = some mem ∧ alookup (b! "A") mem.vars = some (.jv jv) ∧ jv.root = some c' ∧
    mem.env 0 (b! "#/definitions/a%20b") = some .empty ∧
    (∀ ext τ v, Returns ext (fun _ n => alookup n exPercentRef.refs) (.ref 0 (b! "#/definitions/a%20b")) τ v .ok v) ∧
    ∃ n, ∀ ext τ v, Returns ext mem.env c' τ v (.err (.refNotFound n)) v := by
  refine ⟨_, _, _, _, _, rfl, rfl, rfl, rfl, rfl, rfl, fun ext τ v => ⟨by simp, 1, rfl⟩, _, fun ext τ v => ⟨by simp, 1, rfl⟩⟩

end Jsval
