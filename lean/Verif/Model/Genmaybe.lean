import Verif.Model.Cli
/-!
# The generator of the Maybe types (internal/cmd/genmaybe/genmaybe.go)

What strconv, go/format and the operating system do is a parameter (`GenmaybeLib`). Log lines are left out.
-/
namespace Jsval

/-- What the program uses. -/
structure GenmaybeLib where
  /-- `unicode.IsPrint`, for `strconv.Quote` -/
  isPrint : Nat → Bool
  /-- `format.Source` -/
  format : GoStr → Option GoStr
  /-- `os.OpenFile(.., os.O_CREATE|os.O_WRONLY|os.O_TRUNC, 0644)` -/
  creatable : GoStr → Bool
  /-- the bytes that `fh.Write` gets written -/
  accept : GoStr → GoStr

/-- Lines, each ended by a line feed. -/
def textOf (ls : List GoStr) : GoStr := ls.flatMap (· ++ b! "\n")

/-- `tPreamble` (internal/cmd/genmaybe/genmaybe.go:13-21). -/
def maybeTestPreamble : GoStr := textOf [
  b! "package jsval_test",
  b! "",
  b! "import (",
  b! "\t\"testing\"",
  b! "",
  b! "\t\"github.com/lestrrat-go/jsval\"",
  b! ")",
  b! ""]

/-- `preamble` (internal/cmd/genmaybe/genmaybe.go:23-89). -/
def maybePreamble : GoStr := textOf [
  b! "package jsval",
  b! "",
  b! "import (",
  b! "\t\"bytes\"",
  b! "\t\"encoding/json\"",
  b! "\t\"reflect\"",
  b! "\t\"time\"",
  b! ")",
  b! "",
  b! "type ErrInvalidMaybeValue struct {",
  b! "\tValue interface{}",
  b! "}",
  b! "",
  b! "func (e ErrInvalidMaybeValue) Error() string {",
  b! "\tbuf := bytes.Buffer{}",
  b! "\tbuf.WriteString(\"invalid Maybe value: \")",
  b! "\tt := reflect.TypeOf(e.Value)",
  b! "\tswitch t {",
  b! "\tcase nil:",
  b! "\t\tbuf.WriteString(\"(nil)\")",
  b! "\tdefault:",
  b! "\t\tbuf.WriteByte('(')",
  b! "\t\tbuf.WriteString(t.String())",
  b! "\t\tbuf.WriteByte(')')",
  b! "\t}",
  b! "",
  b! "\treturn buf.String()",
  b! "}",
  b! "",
  b! "// Maybe is an interface that can be used for struct fields which",
  b! "// want to differentiate between initialized and uninitialized state.",
  b! "// For example, a string field, if uninitialized, will contain the zero",
  b! "// value of \"\", but that empty string *could* be a valid value for",
  b! "// our validation purposes.",
  b! "//",
  b! "// To differentiate between an uninitialized string and an empty string,",
  b! "// you should wrap it with a wrapper that implements the Maybe interface",
  b! "// and JSVal will do its best to figure this out",
  b! "type Maybe interface {",
  b! "\t// Valid should return true if this value has been properly initialized.",
  b! "\t// If this returns false, JSVal will treat as if the field is has not been",
  b! "\t// provided at all.",
  b! "\tValid() bool",
  b! "",
  b! "\t// Value should return whatever the underlying value is.",
  b! "\tValue() interface{}",
  b! "",
  b! "\t// Set sets a value to this Maybe value, and turns on the Valid flag.",
  b! "\t// An error may be returned if the value could not be set (e.g.",
  b! "\t// you provided a value with the wrong type)",
  b! "\tSet(interface{}) error",
  b! "",
  b! "\t// Reset clears the Maybe value, and sets the Valid flag to false.",
  b! "\tReset()",
  b! "}",
  b! "",
  b! "type ValidFlag bool",
  b! "",
  b! "func (v *ValidFlag) Reset() {",
  b! "\t*v = false",
  b! "}",
  b! "",
  b! "func (v ValidFlag) Valid() bool {",
  b! "\treturn bool(v)",
  b! "}",
  b! ""]

/-- `types` (internal/cmd/genmaybe/genmaybe.go:92-99). -/
def maybeTypes : List (GoStr × GoStr) := [(b! "String", b! "string"), (b! "Int", b! "int64"), (b! "Uint", b! "uint64"),
  (b! "Float", b! "float64"), (b! "Bool", b! "bool"), (b! "Time", b! "time.Time")]

/-- The sorted names (internal/cmd/genmaybe/genmaybe.go:101-105). -/
def maybeNames (σ : Sched) : List GoStr := sortStrings (shuffle σ.key (maybeTypes.map (·.1)))

/-- The code for one test (internal/cmd/genmaybe/genmaybe.go:115-122). -/
def maybeTestOf (isPrint : Nat → Bool) (t : GoStr) : GoStr :=
  b! "\nt.Run(" ++ goQuote isPrint (b! "Maybe" ++ t) ++ b! ", func(t *testing.T) {" ++ b! "\nvar v jsval.Maybe" ++
    (b! "\nv = &jsval.Maybe" ++ t ++ b! "{}") ++ b! "\n_ = v" ++ b! "\n})"

/-- The text `genMaybeTests` writes (internal/cmd/genmaybe/genmaybe.go:111-123). -/
def maybeTestText (isPrint : Nat → Bool) (typenames : List GoStr) : GoStr :=
  maybeTestPreamble ++ b! "\nfunc TestSanity(t *testing.T) {" ++ typenames.flatMap (maybeTestOf isPrint) ++ b! "\n}"

/-- The cases for types that are converted (internal/cmd/genmaybe/genmaybe.go:145-148, 159-162). -/
def maybeCases (t conv : GoStr) (cts : List GoStr) : GoStr :=
  cts.flatMap fun ct => b! "\ncase " ++ ct ++ b! ":" ++ (b! "\nv." ++ t ++ b! " = " ++ conv ++ b! "(x.(" ++ ct ++ b! "))")

/-- The end of `Set` for numbers (internal/cmd/genmaybe/genmaybe.go:151-156, 165-170, 177-182). -/
def maybeSetEnd : GoStr := b! "\ndefault:" ++ b! "\nreturn ErrInvalidMaybeValue{Value: x}" ++ b! "\n}" ++ b! "\nv.ValidFlag = true" ++
  b! "\nreturn nil" ++ b! "\n}"

/-- The body of `Set` (internal/cmd/genmaybe/genmaybe.go:142-209). -/
def maybeSet (t bt : GoStr) : GoStr :=
  if t = b! "Int" then
    b! "\nswitch x.(type) {" ++ maybeCases t (b! "int64") [b! "int", b! "int8", b! "int16", b! "int32", b! "float64"] ++
      b! "\ncase int64:" ++ (b! "\nv." ++ t ++ b! " = x.(int64)") ++ maybeSetEnd
  else if t = b! "Uint" then
    b! "\nswitch x.(type) {" ++ maybeCases t (b! "uint64") [b! "uint", b! "uint8", b! "uint16", b! "uint32", b! "float64"] ++
      b! "\ncase uint64:" ++ (b! "\nv." ++ t ++ b! " = x.(uint64)") ++ maybeSetEnd
  else if t = b! "Float" then
    b! "\nswitch x.(type) {" ++ b! "\ncase float32:" ++ (b! "\nv." ++ t ++ b! " = float64(x.(float32))") ++ b! "\ncase float64:" ++
      (b! "\nv." ++ t ++ b! " = x.(float64)") ++ maybeSetEnd
  else if t = b! "Time" then
    b! "\nswitch x.(type) {" ++ b! "\ncase string:" ++ b! "\ntv, err := time.Parse(time.RFC3339, x.(string))" ++ b! "\nif err != nil {" ++
      b! "\nreturn err" ++ b! "\n}" ++ b! "\nv.ValidFlag = true" ++ b! "\nv.Time = tv" ++ b! "\ncase time.Time:" ++
      b! "\nv.ValidFlag = true" ++ b! "\nv.Time = x.(time.Time)" ++ b! "\ndefault:" ++
      b! "\nreturn ErrInvalidMaybeValue{Value: x}" ++ b! "\n}" ++ b! "\nreturn nil" ++ b! "\n}"
  else
    (b! "\ns, ok := x.(" ++ bt ++ b! ")") ++ b! "\nif !ok {" ++ b! "\nreturn ErrInvalidMaybeValue{Value: x}" ++ b! "\n}" ++
      b! "\nv.ValidFlag = true" ++ (b! "\nv." ++ t ++ b! " = s") ++ b! "\nreturn nil" ++ b! "\n}"

/-- `MarshalJSON` and `UnmarshalJSON` (internal/cmd/genmaybe/genmaybe.go:214-242). -/
def maybeJson (t bt : GoStr) : GoStr :=
  if t = b! "Time" then
    b! "\n\nfunc (v MaybeTime) MarshalJSON() ([]byte, error) {" ++ b! "\nreturn json.Marshal(v.Time.Format(time.RFC3339))" ++ b! "\n}" ++
      b! "\n\nfunc (v *MaybeTime) UnmarshalJSON(data []byte) error {" ++ b! "\nvar s string" ++
      b! "\nif err := json.Unmarshal(data, &s); err != nil {" ++ b! "\n\treturn err" ++ b! "\n}" ++
      b! "\nt, err := time.Parse(time.RFC3339, s)" ++ b! "\nif err != nil {" ++ b! "\n\treturn err" ++ b! "\n}" ++ b! "\nv.Time = t" ++
      b! "\nreturn nil" ++ b! "\n}"
  else
    (b! "\n\nfunc (v Maybe" ++ t ++ b! ") MarshalJSON() ([]byte, error) {") ++ (b! "\nreturn json.Marshal(v." ++ t ++ b! ")") ++ b! "\n}" ++
      (b! "\n\nfunc (v *Maybe" ++ t ++ b! ") UnmarshalJSON(data []byte) error {") ++ (b! "\nvar in " ++ bt) ++
      b! "\nif err := json.Unmarshal(data, &in); err != nil {" ++ b! "\nreturn err" ++ b! "\n}" ++ b! "\nreturn v.Set(in)" ++ b! "\n}"

/-- The code for one type (internal/cmd/genmaybe/genmaybe.go:131-243). -/
def maybeTypeOf (t : GoStr) : GoStr :=
  let bt := (alookup t maybeTypes).getD []
  (b! "\n\ntype Maybe" ++ t ++ b! " struct{") ++ b! "\nValidFlag" ++ (b! "\n" ++ t ++ b! " " ++ bt) ++ b! "\n}" ++
    (b! "\n\nfunc (v *Maybe" ++ t ++ b! ") Set(x interface{}) error {") ++ maybeSet t bt ++
    (b! "\n\nfunc (v Maybe" ++ t ++ b! ") Value() interface{} {") ++ (b! "\nreturn v." ++ t) ++ b! "\n}" ++ maybeJson t bt

/-- The text `genMaybe` writes (internal/cmd/genmaybe/genmaybe.go:129-243). -/
def maybeText (typenames : List GoStr) : GoStr := maybePreamble ++ typenames.flatMap maybeTypeOf

/-- `writeFormatted` (internal/cmd/genmaybe/genmaybe.go:248-263). -/
def GenmaybeLib.write (L : GenmaybeLib) (fn code : GoStr) (d : Disk) : Disk :=
  let fsrc := (L.format code).getD code
  if L.creatable fn then { d with files := fun q => if q = fn then some (L.accept fsrc) else d.files q } else d

/-- `main` (internal/cmd/genmaybe/genmaybe.go:91-109). It ends with status 0. -/
def GenmaybeLib.run (L : GenmaybeLib) (σ : Sched) (d : Disk) : Disk :=
  L.write (b! "maybe_gen_test.go") (maybeTestText L.isPrint (maybeNames σ)) (L.write (b! "maybe.go") (maybeText (maybeNames σ)) d)

end Jsval
