import Verif.Spec.Object
import Verif.Spec.Maybe
import Verif.Model.StructInfo
/-!
# Struct fields and embedding
-/
namespace Jsval

mutual
/-- The fields with every embedded struct replaced, in place, by its own fields. -/
def unembed : List (Field × GoVal) → List (Field × GoVal)
  | [] => []
  | p :: rest => unembedF p ++ unembed rest
def unembedF : Field × GoVal → List (Field × GoVal)
  | (f, v) => if f.anonymous then unembedV v else [(f, v)]
def unembedV : GoVal → List (Field × GoVal)
  | .struct fs => unembed fs
  | _ => []
end

mutual
/-- Every field, embedded ones included, at every embedding depth. -/
def allFields : List (Field × GoVal) → List (Field × GoVal)
  | [] => []
  | p :: rest => (p :: allFieldsF p) ++ allFields rest
def allFieldsF : Field × GoVal → List (Field × GoVal)
  | (f, v) => if f.anonymous then allFieldsV v else []
def allFieldsV : GoVal → List (Field × GoVal)
  | .struct fs => allFields fs
  | _ => []
end

/-- Only structs are embedded (a `time.Time` is a struct too, without exported fields). -/
def EmbedsStructs (fs : List (Field × GoVal)) : Prop :=
  ∀ p ∈ allFields fs, p.1.anonymous = true → (∃ gs, p.2 = .struct gs) ∨ ∃ t, p.2 = .time t

/-- The field that JSON name `k` designates: visible under that name, with no later field of the same name. -/
def Designates (fs : List (Field × GoVal)) (k : GoStr) (f : Field) (v : GoVal) : Prop :=
  ∃ pre post, unembed fs = pre ++ (f, v) :: post ∧ jsonNameSpec f = some k ∧ ∀ q ∈ post, jsonNameSpec q.1 ≠ some k

/-- The field holds a Maybe, by value or by pointer. -/
inductive HoldsMaybe : GoVal → Prop where
  | val (b p) : HoldsMaybe (.maybe b p)
  | ptr (b p) : HoldsMaybe (.ptr (some (.maybe b p)))

/-- Go names are distinct across all embedding depths, so that no field is shadowed. -/
def NoShadowing (fs : List (Field × GoVal)) : Prop := ((allFields fs).map (·.1.name)).Nodup

/-- Numbers that are converted when they are a default for a `MaybeFloat` or `MaybeInt` field, though `Set` itself would
refuse them. -/
inductive TakesNumber : MaybeKind → GoVal → Prop where
  | floatInt (k n) : TakesNumber .float (.int k n)
  | floatUint (k n) : TakesNumber .float (.uint k n)
  | intUint (k n) : TakesNumber .int (.uint k n)
  | intFloat32 (f) : TakesNumber .int (.float .f32 f)

/-- The field takes this value as a default. -/
inductive TakesDefault (ext : Ext) : GoVal → GoVal → Prop where
  | set (w m dv) : Settable ext m.kind dv → TakesDefault ext (.maybe w m) dv
  | number (w m dv) : TakesNumber m.kind dv → TakesDefault ext (.maybe w m) dv
  | ptr (w m dv) : Settable ext m.kind dv → TakesDefault ext (.ptr (some (.maybe w m))) dv

/-- `FillsWith ext k dv y`: a default `dv` for a field of Maybe type `k` is stored as `y`. -/
inductive FillsWith (ext : Ext) : MaybeKind → GoVal → GoVal → Prop where
  | conv (k dv y) : Converts ext k dv y → FillsWith ext k dv y
  | floatInt (k n) : FillsWith ext .float (.int k n) (.float .f64 (F64.ofInt n))
  | floatUint (k) (n : Nat) : FillsWith ext .float (.uint k n) (.float .f64 (F64.ofInt n))
  | intUint (k) (n : Nat) : n < 2 ^ 63 → FillsWith ext .int (.uint k n) (.int .int64 n)
  | intFloat32 (f n) : F64.Truncates f n → -(2 ^ 63) ≤ n → n < 2 ^ 63 →
      FillsWith ext .int (.float .f32 f) (.int .int64 n)

end Jsval
