import Verif.Model.Main
import Verif.Props.Cli
/-!
# The process: which command runs, and what the exit status says (C92)
-/
namespace Jsval
open Go
variable {D V P : Type} {L : MainLib D V P} {fuel : Nat} {σ : Sched} {d d' : Disk} {o : CliOpts}

/-- The user asks for the server: `server` is the first argument after the name of the program. -/
def AsksForServer (args : List GoStr) : Prop := args[1]? = some (b! "server")

theorem main_server (h : AsksForServer L.args) : L.main fuel σ d = L.server d := by
  unfold AsksForServer at h
  unfold MainLib.main
  match e : L.args with
  | [] => rw [e] at h; cases h
  | [_] => rw [e] at h; cases h
  | _ :: a :: _ =>
    rw [e] at h
    cases h
    simp

theorem main_cli (h : ¬ AsksForServer L.args) :
    L.main fuel σ d = ⟨.cli (L.cli.run fuel σ d).1, (L.cli.run fuel σ d).2, []⟩ := by
  unfold AsksForServer at h
  unfold MainLib.main
  match e : L.args with
  | [] => rfl
  | [_] => rfl
  | _ :: a :: _ =>
    rw [e] at h
    simp only [List.getElem?_cons_succ, List.getElem?_cons_zero, Option.some.injEq] at h
    simp only [h, if_false]

/-- C92: exit status 0 means generated code. `http.ListenAndServe` never returns without an error, so the server never ends with
status 0, and the status is 0 exactly if the generator was asked for and everything went well. -/
theorem C92_status (hl : ∀ addr, L.listenAndServe addr ≠ .returns false) :
    (L.main fuel σ d).fate = .cli (.exit 0) ↔ ¬ AsksForServer L.args ∧ ∃ o jobs code, Succeeds L.cli fuel σ d o jobs code := by
  by_cases hs : AsksForServer L.args
  · rw [main_server hs]
    refine ⟨fun h => ?_, fun h => absurd hs h.1⟩
    unfold MainLib.server at h
    split at h
    · cases h
    · next addr _ => split at h
                     · cases h
                     · next e => exact absurd e (hl addr)
                     · cases h
  · rw [main_cli hs, ← C78_status]
    refine ⟨fun h => ⟨hs, _, Prod.ext (MainEnd.cli.inj h) rfl⟩, ?_⟩
    rintro ⟨-, d', h⟩
    simp only [h]

/-- C92: the process opens a port exactly if the first argument is `server` and the options are well-formed, and then one port, at the
address of the options; all other runs leave the network alone. -/
theorem C92_listens {addr : GoStr} : (addr ∈ (L.main fuel σ d).listened ↔ AsksForServer L.args ∧ L.serverFlags = some addr) ∧
    (L.main fuel σ d).listened.length ≤ 1 := by
  by_cases hs : AsksForServer L.args
  · rw [main_server hs]
    unfold MainLib.server
    cases e : L.serverFlags with
    | none => simp
    | some a =>
      dsimp only
      split <;> simp [hs, eq_comm]
  · rw [main_cli hs]
    simp [hs]

/-- C92: a process that listened, or was asked to, has changed no file and has written nothing; it stays alive exactly if the
options are well-formed and the port can be served. -/
theorem C92_server_harmless (hs : AsksForServer L.args) :
    (L.main fuel σ d).disk = d ∧ ((L.main fuel σ d).fate = .serving ↔ ∃ addr, L.serverFlags = some addr ∧ L.listenAndServe addr = .serves) := by
  rw [main_server hs]
  unfold MainLib.server
  cases e : L.serverFlags with
  | none => exact ⟨rfl, by simp⟩
  | some a =>
    dsimp only
    cases e' : L.listenAndServe a with
    | returns b => cases b <;> simp [e']
    | serves => simp [e']

/-- The command of `Props/Cli.lean` with these arguments. Port 80 is taken. -/
def exMain (args : List GoStr) (addr : Option GoStr) : MainLib (Option GoStr) GoStr GoStr where
  args := args
  cli := exCli (b! "v.go") (b! "My") id
  serverFlags := addr
  listenAndServe a := if a = b! ":80" then .returns true else .serves

/-- The hypothesis about `http.ListenAndServe` holds; the generator run has status 0 and so meets the right-hand side. -/
example (args : List GoStr) (addr : Option GoStr) : ∀ a, (exMain args addr).listenAndServe a ≠ .returns false := by
  intro a
  unfold exMain
  dsimp only
  split <;> simp

example : ((exMain [b! "jsval", b! "-s", b! "s.json"] none).main 10 sched0 exDisk).fate = .cli (.exit 0) := by decide +kernel

/-- Serving at the default address; a taken port; `server` that is not the first argument; `server` as the value of an option. -/
example : ((exMain [b! "jsval", b! "server"] (some (b! ":8080"))).main 10 sched0 exDisk).fate = .serving ∧
    ((exMain [b! "jsval", b! "server", b! "-l", b! ":80"] (some (b! ":80"))).main 10 sched0 exDisk).fate = .cli (.exit 1) ∧
    ((exMain [b! "jsval", b! "-l", b! ":81", b! "server"] (some (b! ":81"))).main 10 sched0 exDisk).listened = [] ∧
    AsksForServer [b! "jsval", b! "server"] := by
  refine ⟨?_, ?_, ?_, rfl⟩ <;> decide +kernel

end Jsval
