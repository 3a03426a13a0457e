import Verif.Model.Generator
import Verif.Spec.Generator
import Verif.Spec.GoSyntax
import Verif.Model.Validate
/-!
# Validators the code generator supports

Conditions on a list of validators under which the generated program is claimed to set up equivalent validators.
-/
namespace Jsval

/-- The first constraint registered under a name, in the order of the validators. -/
def firstRef (n : GoStr) (vals : List GenVal) : Option Constraint := vals.findSome? (fun v => alookup n v.refs)

/-- The names under which the validators are declared: their own, or `V` and their number. -/
def valNames (vals : List GenVal) : List GoStr :=
  vals.mapIdx (fun i v => if v.name = [] then b! "V" ++ natDec i else v.name)

/-- All keywords of Go. -/
def goKeywords : List GoStr := Go.keywords ++ [b! "break", b! "continue", b! "fallthrough", b! "return"]

/-- An identifier (of ASCII characters) that is not a keyword. -/
structure GoIdent (s : GoStr) : Prop where
  first : ∃ c t, s = c :: t ∧ Go.isLetter c = true
  all : ∀ c ∈ s, Go.isLetter c = true ∨ isDigit c = true
  keyword : s ∉ goKeywords

/-- Some validator has references. -/
def hasRefs (vals : List GenVal) : Bool := vals.any (fun v => decide (v.refs ≠ []))

/-- The names under which constraints are registered, each once. -/
def refNames (vals : List GenVal) : List GoStr := (vals.flatMap (fun v => v.refs.map (·.1))).dedup

/-- The variables that the generator adds: none if there are no references, otherwise `M` and one variable `R<k>` for every
name. -/
def ownNames (vals : List GenVal) : List GoStr :=
  if hasRefs vals then b! "M" :: (List.range (refNames vals).length).map (fun k => b! "R" ++ natDec k) else []

/-- Names that cannot be used for variables of the generated code: the package, the function, and two constants. -/
def takenNames : List GoStr := [b! "jsval", b! "init", b! "true", b! "false", b! "_"]

/-- References of the tree go to map number `m0`, under names with property `S`. -/
def Constraint.RefsTo (m0 : Nat) (S : GoStr → Prop) (c : Constraint) : Prop := ∀ m n, c = .ref m n → m = m0 ∧ S n

/-- The validators can be generated together; `P` holds for their constraints. -/
structure GenTogether (P : Constraint → Prop) (vals : List GenVal) : Prop where
  /-- the tables are maps -/
  tables : ∀ v ∈ vals, (v.refs.map (·.1)).Nodup
  /-- the names are distinct identifiers that clash with nothing else in the generated code -/
  idents : ∀ x ∈ valNames vals, GoIdent x
  distinct : (valNames vals).Nodup
  fresh : ∀ x ∈ valNames vals, x ∉ takenNames ∧ x ∉ ownNames vals
  /-- roots and registered constraints -/
  roots : ∀ v ∈ vals, ∃ c, v.root = some c ∧ P c
  refs : ∀ v ∈ vals, ∀ n c, alookup n v.refs = some c → P c
  /-- the identity test of a root with registered constraints answers yes only if they are equal -/
  same : ∀ v ∈ vals, ∀ n c, firstRef n vals = some c → v.same n = true → v.root = some c

/-- The validators can be generated together; `ints` tells whether integers may have defaults. -/
structure SupportedD (ints : Prop) (vals : List GenVal) : Prop where
  /-- the tables are maps -/
  tables : ∀ v ∈ vals, (v.refs.map (·.1)).Nodup
  /-- the names are distinct identifiers that clash with nothing else in the generated code -/
  idents : ∀ x ∈ valNames vals, GoIdent x
  distinct : (valNames vals).Nodup
  fresh : ∀ x ∈ valNames vals, x ∉ takenNames ∧ x ∉ ownNames vals
  /-- roots and registered constraints are supported -/
  roots : ∀ v ∈ vals, ∃ c, v.root = some c ∧ c.Every (Constraint.GenD ints (hasRefs vals))
  refs : ∀ v ∈ vals, ∀ n c, alookup n v.refs = some c → c.Every (Constraint.GenD ints (hasRefs vals))
  /-- the identity test of a root with registered constraints answers yes only if they are equal -/
  same : ∀ v ∈ vals, ∀ n c, firstRef n vals = some c → v.same n = true → v.root = some c

/-- The validators can be generated together, and are equivalent to what they were. -/
abbrev Supported (vals : List GenVal) : Prop := SupportedD False vals

/-- The tables of the constraint maps of a running program. -/
def Go.Mem.env (s : Go.Mem) : Env := fun m n => (s.maps[m]?).bind (alookup n)

/-- Different patterns of an object have different source texts. -/
def Constraint.DistinctPats : Constraint → Prop
  | .object o => (o.patterns.map (·.2.1)).Nodup
  | _ => True

/-- What the one constraint can do with a value, the other can do as well, and conversely. -/
def SameOutcomes (ext : Ext) (env : Env) (c : Constraint) (env' : Env) (c' : Constraint) : Prop :=
  ∀ v r v', (∃ σ, Returns ext env' c' σ v r v') ↔ ∃ σ, Returns ext env c σ v r v'

/-- The text written for `c` (in a program without references) is an expression for `c'`. -/
def Generates (isPrint : Nat → Bool) (c : Constraint) (σ : Sched) (c' : Constraint) : Prop :=
  ∃ t e, gen isPrint [] c σ = .ok t ∧ Go.parseExpr t = some e ∧ Go.eval (fun _ => none) e = some (.con c')

/-- Code generation loses nothing of `c`: the text written for it builds a constraint that behaves the same. -/
def Survives (ext : Ext) (isPrint : Nat → Bool) (c : Constraint) : Prop :=
  ∀ σ env, ∃ c', Generates isPrint c σ c' ∧ SameOutcomes ext env c env c'

end Jsval
