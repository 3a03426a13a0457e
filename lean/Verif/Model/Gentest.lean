import Verif.Model.Cli
/-!
# The generator of the test validator (internal/cmd/gentest/gentest.go)

What jsschema, go/format and the operating system do is a parameter (`GentestLib`). Log lines are left out.
-/
namespace Jsval

/-- What the program uses. -/
structure GentestLib where
  /-- `os.Args` -/
  args : List GoStr
  /-- `os.Open`, given that the file exists -/
  readable : GoStr → Bool
  /-- `schema.ReadFile`, given what the file contains -/
  readSchema : GoStr → Option Schema
  /-- what the builder uses -/
  lib : SchemaLib
  /-- how the builder resolves references within the schema itself -/
  resolve : Schema → Resolver
  /-- identity tests between the root of the validator and what is registered -/
  same : GoStr → Bool
  /-- `os.OpenFile(.., os.O_CREATE|os.O_WRONLY|os.O_TRUNC, 0644)` -/
  creatable : GoStr → Bool
  /-- `unicode.IsPrint` -/
  isPrint : Nat → Bool
  /-- `format.Source` -/
  format : GoStr → Option GoStr
  /-- the bytes that `io.Copy` gets written -/
  accept : GoStr → GoStr

/-- What the output begins with (internal/cmd/gentest/gentest.go:32-35). -/
def testHeader : GoStr := b! "package jsval_test" ++ b! "\n\nimport \"github.com/lestrrat-go/jsval\"" ++ b! "\n"

/-- The end of `_main`: the second argument is asked for, the file is opened and written (internal/cmd/gentest/gentest.go:43-51). -/
def GentestLib.save (L : GentestLib) (d : Disk) (out : GoStr) : CliEnd × Disk :=
  match L.args[2]? with
  | none => (.exit 2, d)
  | some path =>
    if L.creatable path then
      (.exit 0, { d with files := fun q => if q = path then some (L.accept out) else d.files q })
    else (.exit 1, d)

/-- `_main` (internal/cmd/gentest/gentest.go:18-52). An index out of range is a panic, exit status 2. -/
def GentestLib.run (L : GentestLib) (fuel : Nat) (σ : Sched) (d : Disk) : CliEnd × Disk :=
  match L.args[1]? with
  | none => (.exit 2, d)
  | some path =>
    match (if L.readable path then d.files path else none) with
    | none => (.exit 1, d)
    | some text =>
      match L.readSchema text with
      | none => (.exit 1, d)
      | some s =>
        match Build L.lib 0 (L.resolve s) fuel (σ.sub 0) s with
        | .error e => (e.cliEnd, d)
        | .ok b =>
          match process L.isPrint [⟨[], b.table, some b.root, L.same⟩] (σ.sub 1) with
          | .error e => (e.cliEnd, d)
          | .ok t =>
            match L.format t with
            | none => (.exit 1, d)
            | some u => L.save d (testHeader ++ u)

end Jsval
