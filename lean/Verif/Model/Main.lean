import Verif.Model.Cli
/-!
# The process (cmd/jsval/jsval.go, `main`, `_main`, `_server`)

The arguments, what go-flags makes of them for each of the two option types, and how `http.ListenAndServe` returns are parameters.
-/
namespace Jsval

/-- How `http.ListenAndServe` behaves: it returns (with an error or without), or goes on serving. -/
inductive Listening where
  | returns (error : Bool)
  | serves
deriving DecidableEq

/-- What the process uses: what `_cli` uses, and what `_server` uses. -/
structure MainLib (D V P : Type) where
  /-- `os.Args` -/
  args : List GoStr
  cli : CliLib D V P
  /-- `flags.Parse(&opts)` with `serverOptions` (cmd/jsval/jsval.go:34-36): the address -/
  serverFlags : Option GoStr
  /-- `http.ListenAndServe` -/
  listenAndServe : GoStr → Listening

/-- The process has ended with a status, and so on (`cli`), or it is serving, forever. -/
inductive MainEnd where
  | cli (e : CliEnd)
  | serving
deriving DecidableEq

/-- What the process has done: its end, the disk, and the addresses at which it tried to listen. -/
structure Done where
  fate : MainEnd
  disk : Disk
  listened : List GoStr

section
variable {D V P : Type} (L : MainLib D V P)

/-- `_server` (cmd/jsval/jsval.go:38-51) with `Run` (server/server.go:125-127). -/
def MainLib.server (d : Disk) : Done :=
  match L.serverFlags with
  | none => ⟨.cli (.exit 1), d, []⟩
  | some addr =>
    match L.listenAndServe addr with
    | .returns true => ⟨.cli (.exit 1), d, [addr]⟩
    | .returns false => ⟨.cli (.exit 0), d, [addr]⟩
    | .serves => ⟨.serving, d, [addr]⟩

/-- `main` and `_main` (cmd/jsval/jsval.go:18-32). -/
def MainLib.main (fuel : Nat) (σ : Sched) (d : Disk) : Done :=
  match L.args with
  | _ :: a :: _ =>
    if a = b! "server" then L.server d
    else ⟨.cli (L.cli.run fuel σ d).1, (L.cli.run fuel σ d).2, []⟩
  | _ => ⟨.cli (L.cli.run fuel σ d).1, (L.cli.run fuel σ d).2, []⟩
end

end Jsval
