import Verif.Model.Builder
import Verif.Model.Generator
/-!
# The command (cmd/jsval/jsval.go)

What go-flags, jsschema, jspointer, encoding/json, go/format and the operating system do is a parameter (`CliLib`).
Log lines go to standard error and are left out.
-/
namespace Jsval

/-- `cliOptions` (cmd/jsval/jsval.go:53-58). -/
structure CliOpts where
  schema : GoStr
  outFile : GoStr
  pointer : List GoStr
  pfx : GoStr
deriving DecidableEq

/-- The part of the world the command acts on: file contents, and what has been written to standard output. -/
structure Disk where
  files : GoStr → Option GoStr
  stdout : GoStr

/-- What the command uses. `D` are JSON objects, `V` JSON values, `P` JSON pointers. -/
structure CliLib (D V P : Type) where
  /-- `flags.Parse(&opts)` on the arguments of the process -/
  flags : Option CliOpts
  /-- `os.Open`, given that the file exists -/
  readable : GoStr → Bool
  /-- `json.NewDecoder(f).Decode(&m)` -/
  decode : GoStr → Option D
  /-- `schema.ReadFile`, given what the file contains -/
  readSchema : GoStr → Option Schema
  /-- `jspointer.New` -/
  pointer : GoStr → Option P
  /-- `resolver.Get(m)` -/
  get : P → D → Option V
  /-- `resolved.(map[string]interface{})` -/
  asMap : V → Option D
  /-- `s.Extract(m2)` -/
  extract : D → Option Schema
  /-- what the builder uses -/
  lib : SchemaLib
  /-- how the builder resolves references in the document -/
  resolve : D → Resolver
  /-- identity tests between the root of a validator and what is registered -/
  same : Nat → GoStr → Bool
  /-- `os.Create` -/
  creatable : GoStr → Bool
  /-- `unicode.IsPrint` -/
  isPrint : Nat → Bool
  /-- `format.Source` -/
  format : GoStr → Option GoStr
  /-- the bytes that `out.Write` gets written -/
  accept : GoStr → GoStr

/-- How the process ends. A panic is exit status 2; `diverge` is not ending; `outside` is what the generator model leaves
out. -/
inductive CliEnd where
  | exit (status : Nat)
  | diverge
  | outside
deriving DecidableEq

section
variable {D V P : Type} (L : CliLib D V P)

/-- The contents of a file that can be opened. -/
def CliLib.openFile (d : Disk) (path : GoStr) : Option GoStr := if L.readable path then d.files path else none

/-- The body of the loop over the pointers (cmd/jsval/jsval.go:91-117). -/
def CliLib.ptrSchema (m : D) (ptr : GoStr) : Option Schema :=
  match L.pointer ptr with
  | none => none
  | some p =>
    match L.get p m with
    | none => none
    | some v =>
      match L.asMap v with
      | none => none
      | some m2 => L.extract m2

/-- The loop over the pointers (cmd/jsval/jsval.go:91-117). -/
def CliLib.ptrSchemas (m : D) : List GoStr → Option (List Schema)
  | [] => some []
  | ptr :: ptrs =>
    match L.ptrSchema m ptr with
    | none => none
    | some s =>
      match CliLib.ptrSchemas m ptrs with
      | none => none
      | some ss => some (s :: ss)

/-- The document and the schemas in it (cmd/jsval/jsval.go:67-118). -/
def CliLib.load (d : Disk) (o : CliOpts) : Option (D × List Schema) :=
  match L.openFile d o.schema with
  | none => none
  | some text =>
    match L.decode text with
    | none => none
    | some m =>
      if o.pointer.length = 0 then
        match L.readSchema text with
        | none => none
        | some s => some (m, [s])
      else
        match L.ptrSchemas m o.pointer with
        | none => none
        | some ss => some (m, ss)

/-- The name the command gives to validator number `i` (cmd/jsval/jsval.go:129-131). -/
def cliName (o : CliOpts) (i : Nat) : GoStr := if o.pfx ≠ [] then o.pfx ++ natDec i else []

/-- The loop that builds the validators (cmd/jsval/jsval.go:122-133), from number `i` on. -/
def CliLib.buildAll (o : CliOpts) (resolve : Resolver) (fuel : Nat) (σ : Sched) : Nat → List Schema → Except CompileStop (List GenVal)
  | _, [] => .ok []
  | i, s :: ss =>
    match BuildWithCtx L.lib i resolve fuel (σ.sub i) s with
    | .error e => .error e
    | .ok b =>
      match CliLib.buildAll o resolve fuel σ (i + 1) ss with
      | .error e => .error e
      | .ok vs => .ok (⟨cliName o i, b.table, some b.root, L.same i⟩ :: vs)

/-- The end of the process when a validator cannot be built. -/
def CompileStop.cliEnd : CompileStop → CliEnd
  | .stop (.err _) => .exit 1
  | .stop .panic => .exit 2
  | .diverge => .diverge

/-- The end of the process when there is no code. -/
def GenStop.cliEnd : GenStop → CliEnd
  | .err => .exit 1
  | .panic => .exit 2
  | .outside => .outside

/-- `os.Create` succeeded: the file exists and is empty. -/
def Disk.create (d : Disk) (path : GoStr) : Disk := { d with files := fun q => if q = path then some [] else d.files q }

/-- A write to the output (cmd/jsval/jsval.go:135-147): the file `path`, or standard output if that is empty. -/
def Disk.write (d : Disk) (path t : GoStr) : Disk :=
  if path = [] then { d with stdout := d.stdout ++ t }
  else { d with files := fun q => if q = path then some ((d.files q).getD [] ++ t) else d.files q }

/-- `Process` (generator.go:26-118) with the writer opened, and the last lines of `_cli`
(cmd/jsval/jsval.go:149-155). The result of `out.Write` is not looked at (generator.go:116). -/
def CliLib.emit (d : Disk) (o : CliOpts) (vals : List GenVal) (σ : Sched) : CliEnd × Disk :=
  match process L.isPrint vals σ with
  | .error e => (e.cliEnd, d)
  | .ok t =>
    match L.format t with
    | none => (.exit 1, d)
    | some u => (.exit 0, d.write o.outFile (L.accept u))

/-- `_cli` (cmd/jsval/jsval.go:60-156). -/
def CliLib.run (fuel : Nat) (σ : Sched) (d : Disk) : CliEnd × Disk :=
  match L.flags with
  | none => (.exit 1, d)
  | some o =>
    match L.load d o with
    | none => (.exit 1, d)
    | some (m, ss) =>
      match L.buildAll o (L.resolve m) fuel (σ.sub 0) 0 ss with
      | .error e => (e.cliEnd, d)
      | .ok vals =>
        if o.outFile ≠ [] then
          if L.creatable o.outFile then L.emit (d.create o.outFile) o vals (σ.sub 1) else (.exit 1, d)
        else L.emit d o vals (σ.sub 1)
end

end Jsval
