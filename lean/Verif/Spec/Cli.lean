import Verif.Model.Cli
import Verif.Spec.Pipeline
/-!
# What the command is to do
-/
namespace Jsval

section
variable {D V P : Type}

/-- The schema that a JSON pointer selects in the document. -/
def Selects (L : CliLib D V P) (m : D) (ptr : GoStr) (s : Schema) : Prop :=
  ∃ p v m2, L.pointer ptr = some p ∧ L.get p m = some v ∧ L.asMap v = some m2 ∧ L.extract m2 = some s

/-- `ss` are the schemas the user asks for: the one in the file, or those the pointers select in the document. -/
inductive AsksFor (L : CliLib D V P) (text : GoStr) (m : D) : List GoStr → List Schema → Prop where
  | whole {s : Schema} : L.readSchema text = some s → AsksFor L text m [] [s]
  | parts {ptrs : List GoStr} {ss : List Schema} : ptrs ≠ [] → List.Forall₂ (Selects L m) ptrs ss → AsksFor L text m ptrs ss

/-- The name of the variable for validator number `i`: the prefix, or `V`, and the number. -/
def cliVar (o : CliOpts) (i : Nat) : GoStr := (if o.pfx = [] then b! "V" else o.pfx) ++ natDec i

/-- The validators were built from the schemas in order, each with references resolved in the document. -/
structure BuiltInOrder (L : CliLib D V P) (o : CliOpts) (m : D) (fuel : Nat) (σ : Sched) (ss : List Schema) (jobs : List Job) : Prop where
  schemas : jobs.map (·.schema) = ss
  each : ∀ i j, jobs[i]? = some j → BuildWithCtx L.lib i (L.resolve m) fuel (σ.sub i) j.schema = .ok j.built ∧
    j.map = i ∧ j.name = (if o.pfx = [] then [] else cliVar o i) ∧ j.same = L.same i

/-- Everything goes well: options, document, schemas, validators, output file, code and layout. -/
structure Succeeds (L : CliLib D V P) (fuel : Nat) (σ : Sched) (d : Disk) (o : CliOpts) (jobs : List Job) (code : GoStr) : Prop where
  flags : L.flags = some o
  built : ∃ text m ss, L.readable o.schema = true ∧ d.files o.schema = some text ∧ L.decode text = some m ∧ AsksFor L text m o.pointer ss ∧
    BuiltInOrder L o m fuel (σ.sub 0) ss jobs
  output : o.outFile ≠ [] → L.creatable o.outFile = true
  code : ∃ t, process L.isPrint (jobs.map Job.val) (σ.sub 1) = .ok t ∧ L.format t = some code

/-- `t` is what standard output gets, or what the output file holds, and nothing else is changed. -/
structure Emitted (o : CliOpts) (d d' : Disk) (t : GoStr) : Prop where
  stdout : d'.stdout = d.stdout ++ if o.outFile = [] then t else []
  file : o.outFile ≠ [] → d'.files o.outFile = some t
  others : ∀ q, o.outFile = [] ∨ q ≠ o.outFile → d'.files q = d.files q

/-- A prefix that makes identifiers: letters and digits, not a digit first (or none at all). -/
structure WordPrefix (p : GoStr) : Prop where
  first : ∀ c t, p = c :: t → Go.isLetter c = true
  all : ∀ c ∈ p, Go.isLetter c = true ∨ isDigit c = true

/-- A prefix that makes good names: letters and digits, not a digit first, and not `R` followed by digits only. -/
structure GoodPrefix (p : GoStr) : Prop extends WordPrefix p where
  notRef : ∀ t, p = b! "R" ++ t → ∃ c ∈ t, isDigit c = false
end

end Jsval
