import Verif.Model.Gentest
import Verif.Spec.Pipeline
/-!
# What the generator of the test validator is to do
-/
namespace Jsval

/-- Reading the schema file `src`, building and generating goes well and gives `code`. -/
def GentestLib.Makes (L : GentestLib) (fuel : Nat) (σ : Sched) (d : Disk) (src code : GoStr) : Prop :=
  ∃ text s b t, L.readable src = true ∧ d.files src = some text ∧ L.readSchema text = some s ∧
    Build L.lib 0 (L.resolve s) fuel (σ.sub 0) s = .ok b ∧
    process L.isPrint [⟨[], b.table, some b.root, L.same⟩] (σ.sub 1) = .ok t ∧ L.format t = some code

/-- The file `dst` now holds `t`, and nothing else is changed. -/
def Saved (dst : GoStr) (d d' : Disk) (t : GoStr) : Prop :=
  d'.stdout = d.stdout ∧ d'.files dst = some t ∧ ∀ q, q ≠ dst → d'.files q = d.files q

end Jsval
