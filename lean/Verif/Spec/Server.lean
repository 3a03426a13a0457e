import Verif.Model.Server
import Verif.Spec.Pipeline
/-!
# What the server is to do
-/
namespace Jsval
variable {D : Type}

/-- The request body is a schema from which validator `b` is built and code `code` generated, with this fuel and these
iteration orders. -/
def ServerLib.Makes (L : ServerLib D) (fuel : Nat) (σ : Sched) (body code : GoStr) : Prop :=
  ∃ s m b t, L.readSchema body = some s ∧ L.decode body = some m ∧
    BuildWithCtx L.lib 0 (L.resolve m) fuel (σ.sub 0) s = .ok b ∧
    process L.isPrint [⟨[], b.table, some b.root, L.same⟩] (σ.sub 1) = .ok t ∧ L.format t = some code

/-- A label that says JSON. -/
def SaysJson (ctype : Option GoStr) : Prop := ∃ rest, ctype = some (b! "application/json" ++ rest)

/-- The first thing that goes wrong in making code from the request body. -/
inductive ServerLib.FailsFor (L : ServerLib D) (fuel : Nat) (σ : Sched) (body : GoStr) : Why → Prop where
  | schema : L.readSchema body = none → FailsFor L fuel σ body .schema
  | json {s} : L.readSchema body = some s → L.decode body = none → FailsFor L fuel σ body .json
  | build {s m e} : L.readSchema body = some s → L.decode body = some m →
      BuildWithCtx L.lib 0 (L.resolve m) fuel (σ.sub 0) s = .error (.stop (.err e)) → FailsFor L fuel σ body (.build e)
  | generate {s m b} : L.readSchema body = some s → L.decode body = some m → BuildWithCtx L.lib 0 (L.resolve m) fuel (σ.sub 0) s = .ok b →
      process L.isPrint [⟨[], b.table, some b.root, L.same⟩] (σ.sub 1) = .error .err → FailsFor L fuel σ body .generate
  | format {s m b t} : L.readSchema body = some s → L.decode body = some m → BuildWithCtx L.lib 0 (L.resolve m) fuel (σ.sub 0) s = .ok b →
      process L.isPrint [⟨[], b.table, some b.root, L.same⟩] (σ.sub 1) = .ok t → L.format t = none → FailsFor L fuel σ body .generate

/-- What this request is to be answered with: status, content type and body. -/
inductive ServerLib.Answers (L : ServerLib D) (fuel : Nat) (r : Request) : Nat → Option GoStr → List Body → Prop where
  | page {t} : r.path = b! "/" → L.parses = true → L.execute = some t →
      Answers L fuel r 200 (some (b! "text/html; charset=utf-8")) [.page t]
  | noPage : r.path = b! "/" → L.parses = false ∨ L.execute = none → Answers L fuel r 500 none [.message (b! "template")]
  | code {σ t} : r.path = b! "/generate.json" → L.Makes fuel σ r.body t →
      Answers L fuel r 200 (some (b! "application/json; charset=utf-8")) [.json (.code t)]
  | noCode {σ why} : r.path = b! "/generate.json" → L.FailsFor fuel σ r.body why → Answers L fuel r 200 none [.json (.failure why)]
  | unknown : r.path ≠ b! "/" → r.path ≠ b! "/generate.json" →
      Answers L fuel r 404 (some (b! "text/plain; charset=utf-8")) [.message (b! "404 page not found")]

/-- The goroutine is between `Lock` and `Unlock`. -/
def SState.Inside (s : SState) (th : Nat) : Prop :=
  ∃ r, s.pc th = .held r ∨ s.pc th = .parse r ∨ (∃ t, s.pc th = .store r t) ∨ ∃ t, s.pc th = .rel r t

/-- No request is in progress. -/
def SState.AllDone (s : SState) : Prop := ∀ th, s.pc th = .idle

end Jsval
