import Verif.Model.Calls
import Verif.Spec.Scalar
import Verif.Spec.Array
/-!
# The last call counts
-/
namespace Jsval

/-- What the last of these calls was given; `g` picks the calls in question. -/
def Latest {α β : Type} (g : α → Option β) (calls : List α) : Option β := (calls.filterMap g).getLast?

/-! What the various calls are given. -/

def StrCall.default? : StrCall → Option GoVal | .default v => some v | _ => none
def StrCall.enum? : StrCall → Option (List GoVal) | .enum v => some v | _ => none
def StrCall.maxLength? : StrCall → Option Int | .maxLength v => some v | _ => none
def StrCall.minLength? : StrCall → Option Int | .minLength v => some v | _ => none
def StrCall.regexp? : StrCall → Option GoStr | .regexp v => some v | _ => none
def StrCall.format? : StrCall → Option GoStr | .format v => some v | _ => none

def NumCall.default? : NumCall → Option GoVal | .default v => some v | _ => none
def NumCall.enum? : NumCall → Option (List GoVal) | .enum v => some v | _ => none
def NumCall.minimum? : NumCall → Option F64 | .minimum v => some v | _ => none
def NumCall.maximum? : NumCall → Option F64 | .maximum v => some v | _ => none
def NumCall.multipleOf? : NumCall → Option F64 | .multipleOf v => some v | _ => none
def NumCall.exclMin? : NumCall → Option Bool | .exclMin v => some v | _ => none
def NumCall.exclMax? : NumCall → Option Bool | .exclMax v => some v | _ => none

def ArrCall.additionalItems? : ArrCall → Option (Option Constraint) | .additionalItems v => some v | _ => none
def ArrCall.items? : ArrCall → Option (Option Constraint) | .items v => some v | _ => none
def ArrCall.minItems? : ArrCall → Option Int | .minItems v => some v | _ => none
def ArrCall.maxItems? : ArrCall → Option Int | .maxItems v => some v | _ => none
def ArrCall.positionalItems? : ArrCall → Option (List Constraint) | .positionalItems v => some v | _ => none
def ArrCall.uniqueItems? : ArrCall → Option Bool | .uniqueItems v => some v | _ => none

def ObjCall.minProperties? : ObjCall → Option Int | .minProperties v => some v | _ => none
def ObjCall.maxProperties? : ObjCall → Option Int | .maxProperties v => some v | _ => none
def ObjCall.additional? : ObjCall → Option (Option Constraint) | .additionalProperties v => some v | _ => none
def ObjCall.prop? (n : GoStr) : ObjCall → Option Constraint | .addProp n' c => if n' = n then some c else none | _ => none
def ObjCall.pattern? (id : Nat) : ObjCall → Option (GoStr × Constraint)
  | .patternProperties i src c => if i = id then some (src, c) else none
  | _ => none
def ObjCall.propDep? (n : GoStr) : ObjCall → Option (List GoStr) | .propDependency n' l => if n' = n then some l else none | _ => none
def ObjCall.schemaDep? (n : GoStr) : ObjCall → Option Constraint | .schemaDependency n' c => if n' = n then some c else none | _ => none

/-- The string obeys the last call of each kind. -/
structure StrCallsOk (ext : Ext) (calls : List StrCall) (s : GoStr) : Prop where
  max : ∀ n, Latest StrCall.maxLength? calls = some n → 0 ≤ n → (s.length : ℤ) ≤ n
  min : ∀ n, Latest StrCall.minLength? calls = some n → n ≤ (s.length : ℤ)
  regexp : ∀ rx, Latest StrCall.regexp? calls = some rx → ext.reMatch rx s = true
  format : ∀ f, Latest StrCall.format? calls = some f → FormatOk ext f s
  enum : ∀ l, Latest StrCall.enum? calls = some l → .str s ∈ l

/-- The number obeys the last call of each kind. -/
structure NumCallsOk (calls : List NumCall) (f : F64) : Prop where
  min : ∀ m, Latest NumCall.minimum? calls = some m → ¬ F64.Lt f m
  exclMin : ∀ m, Latest NumCall.minimum? calls = some m → Latest NumCall.exclMin? calls = some true → ¬ F64.Eq f m
  max : ∀ m, Latest NumCall.maximum? calls = some m → ¬ F64.Lt m f
  exclMax : ∀ m, Latest NumCall.maximum? calls = some m → Latest NumCall.exclMax? calls = some true → ¬ F64.Eq f m
  mult : ∀ m, Latest NumCall.multipleOf? calls = some m → ¬ m.IsZero → F64.MultOf f m
  enum : ∀ l, Latest NumCall.enum? calls = some l → ∃ g, GoVal.float .f64 g ∈ l ∧ F64.Eq g f

/-- The list obeys the last calls about its length and about repetitions. -/
structure ListCallsOk (ext : Ext) (calls : List ArrCall) (xs : List GoVal) : Prop where
  min : ∀ n, Latest ArrCall.minItems? calls = some n → n ≤ (xs.length : ℤ)
  max : ∀ n, Latest ArrCall.maxItems? calls = some n → 0 ≤ n → (xs.length : ℤ) ≤ n
  unique : Latest ArrCall.uniqueItems? calls = some true → ¬ Repeats ext xs

/-- The last call of each kind is the same in both. -/
structure SameArr (calls calls' : List ArrCall) : Prop where
  additional : Latest ArrCall.additionalItems? calls = Latest ArrCall.additionalItems? calls'
  items : Latest ArrCall.items? calls = Latest ArrCall.items? calls'
  min : Latest ArrCall.minItems? calls = Latest ArrCall.minItems? calls'
  max : Latest ArrCall.maxItems? calls = Latest ArrCall.maxItems? calls'
  positional : Latest ArrCall.positionalItems? calls = Latest ArrCall.positionalItems? calls'
  unique : Latest ArrCall.uniqueItems? calls = Latest ArrCall.uniqueItems? calls'

/-- The same names are required, the same properties are needed by each property, and the last call of each other kind, for
each name or regular expression, is the same in both. -/
structure SameObj (calls calls' : List ObjCall) : Prop where
  min : Latest ObjCall.minProperties? calls = Latest ObjCall.minProperties? calls'
  max : Latest ObjCall.maxProperties? calls = Latest ObjCall.maxProperties? calls'
  additional : Latest ObjCall.additional? calls = Latest ObjCall.additional? calls'
  prop : ∀ n, Latest (ObjCall.prop? n) calls = Latest (ObjCall.prop? n) calls'
  pattern : ∀ id, Latest (ObjCall.pattern? id) calls = Latest (ObjCall.pattern? id) calls'
  required : ∀ p, (∃ l, .required l ∈ calls ∧ p ∈ l) ↔ ∃ l, .required l ∈ calls' ∧ p ∈ l
  propDep : ∀ n, (calls.filterMap (ObjCall.propDep? n)).flatten = (calls'.filterMap (ObjCall.propDep? n)).flatten
  schemaDep : ∀ n, Latest (ObjCall.schemaDep? n) calls = Latest (ObjCall.schemaDep? n) calls'

end Jsval
