import Verif.Model.Genmaybe
/-!
# The files the generator of the Maybe types is to write

Both are copied from /repo.
-/
namespace Jsval

/-- maybe.go:1-66 -/
def maybeGoHead : List GoStr := [
  b! "package jsval",
  b! "",
  b! "import (",
  b! "\t\"bytes\"",
  b! "\t\"encoding/json\"",
  b! "\t\"reflect\"",
  b! "\t\"time\"",
  b! ")",
  b! "",
  b! "type ErrInvalidMaybeValue struct {",
  b! "\tValue interface{}",
  b! "}",
  b! "",
  b! "func (e ErrInvalidMaybeValue) Error() string {",
  b! "\tbuf := bytes.Buffer{}",
  b! "\tbuf.WriteString(\"invalid Maybe value: \")",
  b! "\tt := reflect.TypeOf(e.Value)",
  b! "\tswitch t {",
  b! "\tcase nil:",
  b! "\t\tbuf.WriteString(\"(nil)\")",
  b! "\tdefault:",
  b! "\t\tbuf.WriteByte('(')",
  b! "\t\tbuf.WriteString(t.String())",
  b! "\t\tbuf.WriteByte(')')",
  b! "\t}",
  b! "",
  b! "\treturn buf.String()",
  b! "}",
  b! "",
  b! "// Maybe is an interface that can be used for struct fields which",
  b! "// want to differentiate between initialized and uninitialized state.",
  b! "// For example, a string field, if uninitialized, will contain the zero",
  b! "// value of \"\", but that empty string *could* be a valid value for",
  b! "// our validation purposes.",
  b! "//",
  b! "// To differentiate between an uninitialized string and an empty string,",
  b! "// you should wrap it with a wrapper that implements the Maybe interface",
  b! "// and JSVal will do its best to figure this out",
  b! "type Maybe interface {",
  b! "\t// Valid should return true if this value has been properly initialized.",
  b! "\t// If this returns false, JSVal will treat as if the field is has not been",
  b! "\t// provided at all.",
  b! "\tValid() bool",
  b! "",
  b! "\t// Value should return whatever the underlying value is.",
  b! "\tValue() interface{}",
  b! "",
  b! "\t// Set sets a value to this Maybe value, and turns on the Valid flag.",
  b! "\t// An error may be returned if the value could not be set (e.g.",
  b! "\t// you provided a value with the wrong type)",
  b! "\tSet(interface{}) error",
  b! "",
  b! "\t// Reset clears the Maybe value, and sets the Valid flag to false.",
  b! "\tReset()",
  b! "}",
  b! "",
  b! "type ValidFlag bool",
  b! "",
  b! "func (v *ValidFlag) Reset() {",
  b! "\t*v = false",
  b! "}",
  b! "",
  b! "func (v ValidFlag) Valid() bool {",
  b! "\treturn bool(v)",
  b! "}",
  b! ""]

/-- maybe.go:67-97 -/
def maybeGoBool : List GoStr := [
  b! "type MaybeBool struct {",
  b! "\tValidFlag",
  b! "\tBool bool",
  b! "}",
  b! "",
  b! "func (v *MaybeBool) Set(x interface{}) error {",
  b! "\ts, ok := x.(bool)",
  b! "\tif !ok {",
  b! "\t\treturn ErrInvalidMaybeValue{Value: x}",
  b! "\t}",
  b! "\tv.ValidFlag = true",
  b! "\tv.Bool = s",
  b! "\treturn nil",
  b! "}",
  b! "",
  b! "func (v MaybeBool) Value() interface{} {",
  b! "\treturn v.Bool",
  b! "}",
  b! "",
  b! "func (v MaybeBool) MarshalJSON() ([]byte, error) {",
  b! "\treturn json.Marshal(v.Bool)",
  b! "}",
  b! "",
  b! "func (v *MaybeBool) UnmarshalJSON(data []byte) error {",
  b! "\tvar in bool",
  b! "\tif err := json.Unmarshal(data, &in); err != nil {",
  b! "\t\treturn err",
  b! "\t}",
  b! "\treturn v.Set(in)",
  b! "}",
  b! ""]

/-- maybe.go:98-131 -/
def maybeGoFloat : List GoStr := [
  b! "type MaybeFloat struct {",
  b! "\tValidFlag",
  b! "\tFloat float64",
  b! "}",
  b! "",
  b! "func (v *MaybeFloat) Set(x interface{}) error {",
  b! "\tswitch x.(type) {",
  b! "\tcase float32:",
  b! "\t\tv.Float = float64(x.(float32))",
  b! "\tcase float64:",
  b! "\t\tv.Float = x.(float64)",
  b! "\tdefault:",
  b! "\t\treturn ErrInvalidMaybeValue{Value: x}",
  b! "\t}",
  b! "\tv.ValidFlag = true",
  b! "\treturn nil",
  b! "}",
  b! "",
  b! "func (v MaybeFloat) Value() interface{} {",
  b! "\treturn v.Float",
  b! "}",
  b! "",
  b! "func (v MaybeFloat) MarshalJSON() ([]byte, error) {",
  b! "\treturn json.Marshal(v.Float)",
  b! "}",
  b! "",
  b! "func (v *MaybeFloat) UnmarshalJSON(data []byte) error {",
  b! "\tvar in float64",
  b! "\tif err := json.Unmarshal(data, &in); err != nil {",
  b! "\t\treturn err",
  b! "\t}",
  b! "\treturn v.Set(in)",
  b! "}",
  b! ""]

/-- maybe.go:132-173 -/
def maybeGoInt : List GoStr := [
  b! "type MaybeInt struct {",
  b! "\tValidFlag",
  b! "\tInt int64",
  b! "}",
  b! "",
  b! "func (v *MaybeInt) Set(x interface{}) error {",
  b! "\tswitch x.(type) {",
  b! "\tcase int:",
  b! "\t\tv.Int = int64(x.(int))",
  b! "\tcase int8:",
  b! "\t\tv.Int = int64(x.(int8))",
  b! "\tcase int16:",
  b! "\t\tv.Int = int64(x.(int16))",
  b! "\tcase int32:",
  b! "\t\tv.Int = int64(x.(int32))",
  b! "\tcase float64:",
  b! "\t\tv.Int = int64(x.(float64))",
  b! "\tcase int64:",
  b! "\t\tv.Int = x.(int64)",
  b! "\tdefault:",
  b! "\t\treturn ErrInvalidMaybeValue{Value: x}",
  b! "\t}",
  b! "\tv.ValidFlag = true",
  b! "\treturn nil",
  b! "}",
  b! "",
  b! "func (v MaybeInt) Value() interface{} {",
  b! "\treturn v.Int",
  b! "}",
  b! "",
  b! "func (v MaybeInt) MarshalJSON() ([]byte, error) {",
  b! "\treturn json.Marshal(v.Int)",
  b! "}",
  b! "",
  b! "func (v *MaybeInt) UnmarshalJSON(data []byte) error {",
  b! "\tvar in int64",
  b! "\tif err := json.Unmarshal(data, &in); err != nil {",
  b! "\t\treturn err",
  b! "\t}",
  b! "\treturn v.Set(in)",
  b! "}",
  b! ""]

/-- maybe.go:174-204 -/
def maybeGoString : List GoStr := [
  b! "type MaybeString struct {",
  b! "\tValidFlag",
  b! "\tString string",
  b! "}",
  b! "",
  b! "func (v *MaybeString) Set(x interface{}) error {",
  b! "\ts, ok := x.(string)",
  b! "\tif !ok {",
  b! "\t\treturn ErrInvalidMaybeValue{Value: x}",
  b! "\t}",
  b! "\tv.ValidFlag = true",
  b! "\tv.String = s",
  b! "\treturn nil",
  b! "}",
  b! "",
  b! "func (v MaybeString) Value() interface{} {",
  b! "\treturn v.String",
  b! "}",
  b! "",
  b! "func (v MaybeString) MarshalJSON() ([]byte, error) {",
  b! "\treturn json.Marshal(v.String)",
  b! "}",
  b! "",
  b! "func (v *MaybeString) UnmarshalJSON(data []byte) error {",
  b! "\tvar in string",
  b! "\tif err := json.Unmarshal(data, &in); err != nil {",
  b! "\t\treturn err",
  b! "\t}",
  b! "\treturn v.Set(in)",
  b! "}",
  b! ""]

/-- maybe.go:205-248 -/
def maybeGoTime : List GoStr := [
  b! "type MaybeTime struct {",
  b! "\tValidFlag",
  b! "\tTime time.Time",
  b! "}",
  b! "",
  b! "func (v *MaybeTime) Set(x interface{}) error {",
  b! "\tswitch x.(type) {",
  b! "\tcase string:",
  b! "\t\ttv, err := time.Parse(time.RFC3339, x.(string))",
  b! "\t\tif err != nil {",
  b! "\t\t\treturn err",
  b! "\t\t}",
  b! "\t\tv.ValidFlag = true",
  b! "\t\tv.Time = tv",
  b! "\tcase time.Time:",
  b! "\t\tv.ValidFlag = true",
  b! "\t\tv.Time = x.(time.Time)",
  b! "\tdefault:",
  b! "\t\treturn ErrInvalidMaybeValue{Value: x}",
  b! "\t}",
  b! "\treturn nil",
  b! "}",
  b! "",
  b! "func (v MaybeTime) Value() interface{} {",
  b! "\treturn v.Time",
  b! "}",
  b! "",
  b! "func (v MaybeTime) MarshalJSON() ([]byte, error) {",
  b! "\treturn json.Marshal(v.Time.Format(time.RFC3339))",
  b! "}",
  b! "",
  b! "func (v *MaybeTime) UnmarshalJSON(data []byte) error {",
  b! "\tvar s string",
  b! "\tif err := json.Unmarshal(data, &s); err != nil {",
  b! "\t\treturn err",
  b! "\t}",
  b! "\tt, err := time.Parse(time.RFC3339, s)",
  b! "\tif err != nil {",
  b! "\t\treturn err",
  b! "\t}",
  b! "\tv.Time = t",
  b! "\treturn nil",
  b! "}",
  b! ""]

/-- maybe.go:249-289 -/
def maybeGoUint : List GoStr := [
  b! "type MaybeUint struct {",
  b! "\tValidFlag",
  b! "\tUint uint64",
  b! "}",
  b! "",
  b! "func (v *MaybeUint) Set(x interface{}) error {",
  b! "\tswitch x.(type) {",
  b! "\tcase uint:",
  b! "\t\tv.Uint = uint64(x.(uint))",
  b! "\tcase uint8:",
  b! "\t\tv.Uint = uint64(x.(uint8))",
  b! "\tcase uint16:",
  b! "\t\tv.Uint = uint64(x.(uint16))",
  b! "\tcase uint32:",
  b! "\t\tv.Uint = uint64(x.(uint32))",
  b! "\tcase float64:",
  b! "\t\tv.Uint = uint64(x.(float64))",
  b! "\tcase uint64:",
  b! "\t\tv.Uint = x.(uint64)",
  b! "\tdefault:",
  b! "\t\treturn ErrInvalidMaybeValue{Value: x}",
  b! "\t}",
  b! "\tv.ValidFlag = true",
  b! "\treturn nil",
  b! "}",
  b! "",
  b! "func (v MaybeUint) Value() interface{} {",
  b! "\treturn v.Uint",
  b! "}",
  b! "",
  b! "func (v MaybeUint) MarshalJSON() ([]byte, error) {",
  b! "\treturn json.Marshal(v.Uint)",
  b! "}",
  b! "",
  b! "func (v *MaybeUint) UnmarshalJSON(data []byte) error {",
  b! "\tvar in uint64",
  b! "\tif err := json.Unmarshal(data, &in); err != nil {",
  b! "\t\treturn err",
  b! "\t}",
  b! "\treturn v.Set(in)",
  b! "}"]


/-- maybe.go -/
def maybeGo : GoStr := textOf (maybeGoHead ++ maybeGoBool ++ maybeGoFloat ++ maybeGoInt ++ maybeGoString ++ maybeGoTime ++ maybeGoUint)

/-- maybe_gen_test.go -/
def maybeGenTestGo : GoStr := textOf [
  b! "package jsval_test",
  b! "",
  b! "import (",
  b! "\t\"testing\"",
  b! "",
  b! "\t\"github.com/lestrrat-go/jsval\"",
  b! ")",
  b! "",
  b! "func TestSanity(t *testing.T) {",
  b! "\tt.Run(\"MaybeBool\", func(t *testing.T) {",
  b! "\t\tvar v jsval.Maybe",
  b! "\t\tv = &jsval.MaybeBool{}",
  b! "\t\t_ = v",
  b! "\t})",
  b! "\tt.Run(\"MaybeFloat\", func(t *testing.T) {",
  b! "\t\tvar v jsval.Maybe",
  b! "\t\tv = &jsval.MaybeFloat{}",
  b! "\t\t_ = v",
  b! "\t})",
  b! "\tt.Run(\"MaybeInt\", func(t *testing.T) {",
  b! "\t\tvar v jsval.Maybe",
  b! "\t\tv = &jsval.MaybeInt{}",
  b! "\t\t_ = v",
  b! "\t})",
  b! "\tt.Run(\"MaybeString\", func(t *testing.T) {",
  b! "\t\tvar v jsval.Maybe",
  b! "\t\tv = &jsval.MaybeString{}",
  b! "\t\t_ = v",
  b! "\t})",
  b! "\tt.Run(\"MaybeTime\", func(t *testing.T) {",
  b! "\t\tvar v jsval.Maybe",
  b! "\t\tv = &jsval.MaybeTime{}",
  b! "\t\t_ = v",
  b! "\t})",
  b! "\tt.Run(\"MaybeUint\", func(t *testing.T) {",
  b! "\t\tvar v jsval.Maybe",
  b! "\t\tv = &jsval.MaybeUint{}",
  b! "\t\t_ = v",
  b! "\t})",
  b! "}"]

/-- The characters that are not blanks, tabs or line feeds. -/
def ink (t : GoStr) : GoStr := t.filter fun c => c ≠ 32 ∧ c ≠ 9 ∧ c ≠ 10

end Jsval
