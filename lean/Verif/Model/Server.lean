import Verif.Model.Cli
import Verif.Model.Registry
/-!
# The server (server/server.go)

What jsschema, encoding/json, html/template and go/format do is a parameter (`ServerLib`). Of net/http the response writer is
modelled: the first `WriteHeader` or `Write` sends the status and the headers as they are then; later changes have no effect. A
panic in a handler is recovered by net/http, which closes the connection without an answer.
-/
namespace Jsval

/-- Why there is no code: the error whose text is sent (server/server.go:168-200). -/
inductive Why where
  | schema
  | json
  | build (e : BuildErr)
  | generate

/-- `resp` as JSON (server/server.go:163-206). -/
inductive Payload where
  | failure (why : Why)      -- {"success": false, "message": …}
  | code (t : GoStr)         -- {"success": true, "code": …}

/-- What is written in the body of an answer. -/
inductive Body where
  | json (p : Payload)
  | page (t : GoStr)
  | message (t : GoStr)

/-- `http.ResponseWriter`: the content type in the header map, the status and content type that have been sent, and
the body. -/
structure Writer where
  ctype : Option GoStr := none
  sent : Option (Nat × Option GoStr) := none
  body : List Body := []

/-- `w.Header().Set("Content-Type", t)`. -/
def Writer.setType (w : Writer) (t : GoStr) : Writer := { w with ctype := some t }
/-- `w.WriteHeader(code)`. -/
def Writer.writeHeader (w : Writer) (code : Nat) : Writer := { w with sent := some (w.sent.getD (code, w.ctype)) }
/-- `w.Write`. -/
def Writer.write (w : Writer) (b : Body) : Writer := { w.writeHeader 200 with body := w.body ++ [b] }

/-- How a request ends. An answer has a status, the content type set by the handler (net/http guesses one if there is none),
and a body. -/
inductive HttpEnd where
  | answered (status : Nat) (ctype : Option GoStr) (body : List Body)
  | dropped
  | diverge
  | outside

/-- The end of a handler that returned. -/
def Writer.done (w : Writer) : HttpEnd :=
  let (status, ctype) := w.sent.getD (200, w.ctype)
  .answered status ctype w.body

/-- What the server uses. `D` are JSON objects. -/
structure ServerLib (D : Type) where
  /-- `schema.Read` -/
  readSchema : GoStr → Option Schema
  /-- `json.NewDecoder(…).Decode(&m)` -/
  decode : GoStr → Option D
  /-- what the builder uses -/
  lib : SchemaLib
  /-- how the builder resolves references in the document -/
  resolve : D → Resolver
  /-- identity tests between the root of the validator and what is registered -/
  same : GoStr → Bool
  /-- `unicode.IsPrint` -/
  isPrint : Nat → Bool
  /-- `format.Source` -/
  format : GoStr → Option GoStr
  /-- `t.Parse(indexTmpl)` succeeds -/
  parses : Bool
  /-- `t.ExecuteTemplate(&buf, "index.tmpl", nil)` -/
  execute : Option GoStr

/-- `r.URL.Path`, and what `io.Copy` gets from `r.Body` before it ends or fails (its error is ignored, server/server.go:166). -/
structure Request where
  path : GoStr
  body : GoStr
deriving DecidableEq

section
variable {D : Type} (L : ServerLib D)

/-- A failure is reported (server/server.go:170-173 and so on): no status, no content type is set. -/
def failWith (why : Why) : HttpEnd := (Writer.write {} (.json (.failure why))).done

/-- The validator as `Process` sees it; it has no name. -/
def ServerLib.val (b : Built) : GenVal := ⟨[], b.table, some b.root, L.same⟩

/-- `httpGenerateValidator` (server/server.go:162-207). -/
def ServerLib.generate (fuel : Nat) (σ : Sched) (body : GoStr) : HttpEnd :=
  match L.readSchema body with
  | none => failWith .schema
  | some s =>
    match L.decode body with
    | none => failWith .json
    | some m =>
      match BuildWithCtx L.lib 0 (L.resolve m) fuel (σ.sub 0) s with
      | .error (.stop (.err e)) => failWith (.build e)
      | .error (.stop .panic) => .dropped
      | .error .diverge => .diverge
      | .ok b =>
        match process L.isPrint [L.val b] (σ.sub 1) with
        | .error .err => failWith .generate
        | .error .panic => .dropped
        | .error .outside => .outside
        | .ok t =>
          match L.format t with
          | none => failWith .generate
          | some u =>
            ((((({} : Writer).setType (b! "application/json; charset=utf-8")).writeHeader 200).write (.json (.code u)))).done

/-- `httpIndex` (server/server.go:141-160), given whether `getTemplates` succeeded. -/
def ServerLib.index (got : Bool) : HttpEnd :=
  if got then
    match L.execute with
    | none => ((({} : Writer).writeHeader 500).write (.message (b! "template"))).done
    | some page => (((({} : Writer).setType (b! "text/html; charset=utf-8")).writeHeader 200).write (.page page)).done
  else ((({} : Writer).writeHeader 500).write (.message (b! "template"))).done

/-- `http.NotFound`. -/
def notFound : HttpEnd :=
  (((({} : Writer).setType (b! "text/plain; charset=utf-8")).writeHeader 404).write (.message (b! "404 page not found"))).done

/-- A request on a server that has nothing else to do: `ServeHTTP` (server/server.go:129-139) with `getTemplates`
(server/server.go:94-123), which either finds templates or parses them. The flag says whether templates are there. -/
def ServerLib.serve (fuel : Nat) (σ : Sched) (cached : Bool) (r : Request) : HttpEnd :=
  if r.path = b! "/" then L.index (cached || L.parses)
  else if r.path = b! "/generate.json" then L.generate fuel σ r.body
  else notFound
end

/-! ## Concurrent requests

`net/http` runs each request in a goroutine of its own. The handlers share the mutex and the templates. Steps are the operations on the
mutex and the accesses between them. A pointer to a template is a number, counted up with each call of `template.New`. -/

/-- Where a goroutine is. -/
inductive SPc where
  | idle
  | start (r : Request)                   -- server/server.go:131
  | want (r : Request)                    -- server/server.go:95
  | held (r : Request)                    -- server/server.go:98
  | parse (r : Request)                   -- server/server.go:102-119
  | store (r : Request) (t : Nat)         -- server/server.go:121
  | rel (r : Request) (t : Option Nat)    -- server/server.go:96, 99, 117, 122, the deferred unlock
  | page (r : Request) (t : Option Nat)   -- server/server.go:143-159
deriving DecidableEq

structure SState where
  templates : Option Nat
  next : Nat
  holder : Option Nat
  pc : Nat → SPc

/-- What an observer sees of a step. -/
inductive SEvent where
  | request (th : Nat) (r : Request)
  | parsed (th : Nat) (t : Nat)
  | answer (th : Nat) (r : Request) (tmpl : Option Nat) (e : HttpEnd)
  | internal (th : Nat)

section
variable {D : Type} (L : ServerLib D)

inductive SStep (fuel : Nat) : SState → SEvent → SState → Prop where
  | request {s th} (r) : s.pc th = .idle → SStep fuel s (.request th r) { s with pc := upd s.pc th (.start r) }
  | index {s th r} : s.pc th = .start r → r.path = b! "/" → SStep fuel s (.internal th) { s with pc := upd s.pc th (.want r) }
  | generate {s th r} (σ) : s.pc th = .start r → r.path = b! "/generate.json" →
      SStep fuel s (.answer th r none (L.generate fuel σ r.body)) { s with pc := upd s.pc th .idle }
  | other {s th r} : s.pc th = .start r → r.path ≠ b! "/" → r.path ≠ b! "/generate.json" →
      SStep fuel s (.answer th r none notFound) { s with pc := upd s.pc th .idle }
  | lock {s th r} : s.pc th = .want r → s.holder = none →
      SStep fuel s (.internal th) { s with holder := some th, pc := upd s.pc th (.held r) }
  | found {s th r t} : s.pc th = .held r → s.templates = some t →
      SStep fuel s (.internal th) { s with pc := upd s.pc th (.rel r (some t)) }
  | missing {s th r} : s.pc th = .held r → s.templates = none → SStep fuel s (.internal th) { s with pc := upd s.pc th (.parse r) }
  | parse {s th r} : s.pc th = .parse r → L.parses = true →
      SStep fuel s (.parsed th s.next) { s with next := s.next + 1, pc := upd s.pc th (.store r s.next) }
  | parseFails {s th r} : s.pc th = .parse r → L.parses = false →
      SStep fuel s (.internal th) { s with next := s.next + 1, pc := upd s.pc th (.rel r none) }
  | store {s th r t} : s.pc th = .store r t →
      SStep fuel s (.internal th) { s with templates := some t, pc := upd s.pc th (.rel r (some t)) }
  | unlock {s th r t} : s.pc th = .rel r t → SStep fuel s (.internal th) { s with holder := none, pc := upd s.pc th (.page r t) }
  | page {s th r t} : s.pc th = .page r t →
      SStep fuel s (.answer th r t (L.index t.isSome)) { s with pc := upd s.pc th .idle }

/-- Executions with their event sequence. -/
inductive SRun (fuel : Nat) : SState → List SEvent → SState → Prop where
  | nil (s) : SRun fuel s [] s
  | snoc {s es s' e s''} : SRun fuel s es s' → SStep L fuel s' e s'' → SRun fuel s (es ++ [e]) s''

/-- `New()` (server/server.go:90-92). -/
def SState.init : SState := ⟨none, 0, none, fun _ => .idle⟩
end

end Jsval
