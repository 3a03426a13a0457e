import Verif.Spec.Genmaybe
import Verif.Spec.Gentest
import Verif.Lemmas.GenBuild
/-!
# The generator of the Maybe types (C96)
-/
namespace Jsval
variable {L : GenmaybeLib} {σ : Sched} {d : Disk}

theorem maybeNames_eq (σ : Sched) : maybeNames σ = [b! "Bool", b! "Float", b! "Int", b! "String", b! "Time", b! "Uint"] := by
  unfold maybeNames
  rw [sortStrings_congr (shuffle_perm _ _)]
  decide +kernel

theorem ink_append (a b : GoStr) : ink (a ++ b) = ink a ++ ink b := List.filter_append ..
theorem ink_textOf (ls : List GoStr) : ink (textOf ls) = (ls.map ink).flatten := by
  induction ls with
  | nil => rfl
  | cons l ls ih =>
    have : textOf (l :: ls) = l ++ (b! "\n" ++ textOf ls) := by simp [textOf]
    rw [this, ink_append, ink_append, ih]
    rfl

theorem maybeText_ink : ink (maybeText [b! "Bool", b! "Float", b! "Int", b! "String", b! "Time", b! "Uint"]) = ink maybeGo := by
  have h0 : ink maybePreamble = ink (textOf maybeGoHead) := by
    rw [maybePreamble, ink_textOf, ink_textOf]
    exact congrArg List.flatten (by decide +kernel)
  have h1 : ink (maybeTypeOf (b! "Bool")) = ink (textOf maybeGoBool) := by decide +kernel
  have h2 : ink (maybeTypeOf (b! "Float")) = ink (textOf maybeGoFloat) := by decide +kernel
  have h3 : ink (maybeTypeOf (b! "Int")) = ink (textOf maybeGoInt) := by decide +kernel
  have h4 : ink (maybeTypeOf (b! "String")) = ink (textOf maybeGoString) := by decide +kernel
  have h5 : ink (maybeTypeOf (b! "Time")) = ink (textOf maybeGoTime) := by decide +kernel
  have h6 : ink (maybeTypeOf (b! "Uint")) = ink (textOf maybeGoUint) := by decide +kernel
  simp only [maybeText, maybeGo, textOf, List.flatMap_cons, List.flatMap_nil, List.append_nil, List.flatMap_append] at *
  simp only [ink_append, h0, h1, h2, h3, h4, h5, h6, List.append_assoc]

theorem maybeQuote {isPrint : Nat → Bool} {t : GoStr}
    (ht : t ∈ [b! "Bool", b! "Float", b! "Int", b! "String", b! "Time", b! "Uint"]) :
    goQuote isPrint (b! "Maybe" ++ t) = b! "\"Maybe" ++ t ++ b! "\"" := by
  simp only [List.mem_cons, List.not_mem_nil, or_false] at ht
  rcases ht with rfl | rfl | rfl | rfl | rfl | rfl <;> rfl

theorem maybeTestText_ink {isPrint : Nat → Bool} :
    ink (maybeTestText isPrint [b! "Bool", b! "Float", b! "Int", b! "String", b! "Time", b! "Uint"]) = ink maybeGenTestGo := by
  have h : ∀ t ∈ [b! "Bool", b! "Float", b! "Int", b! "String", b! "Time", b! "Uint"],
      maybeTestOf isPrint t = b! "\nt.Run(" ++ (b! "\"Maybe" ++ t ++ b! "\"") ++ b! ", func(t *testing.T) {\nvar v jsval.Maybe\nv = &jsval.Maybe" ++ t ++
        b! "{}\n_ = v\n})" := fun t ht => by
    rw [maybeTestOf, maybeQuote ht]
    simp
  unfold maybeTestText
  rw [show [b! "Bool", b! "Float", b! "Int", b! "String", b! "Time", b! "Uint"].flatMap (maybeTestOf isPrint) =
    [b! "Bool", b! "Float", b! "Int", b! "String", b! "Time", b! "Uint"].flatMap _ from List.flatMap_congr h]
  decide +kernel

theorem write_at {fn code : GoStr} (h : L.creatable fn = true) : (L.write fn code d).files fn = some (L.accept ((L.format code).getD code)) := by
  simp [GenmaybeLib.write, h]
theorem write_else {fn code q : GoStr} (h : q ≠ fn) : (L.write fn code d).files q = d.files q := by
  unfold GenmaybeLib.write
  simp only
  split_ifs
  · simp [h]
  · rfl
theorem write_closed {fn code : GoStr} (h : L.creatable fn = false) : L.write fn code d = d := by
  simp [GenmaybeLib.write, h]
theorem write_stdout {fn code : GoStr} : (L.write fn code d).stdout = d.stdout := by
  unfold GenmaybeLib.write
  simp only
  split_ifs <;> rfl

/-- C96: genmaybe writes maybe.go and maybe_gen_test.go and changes nothing else. Both are, whatever the iteration order, the files of the
repository up to blanks and line breaks, given that `format.Source` changes nothing but those, and that both files can be written. -/
theorem C96_files (hf : ∀ t u, L.format t = some u → ink u = ink t)
    (hc : L.creatable (b! "maybe.go") = true) (hc' : L.creatable (b! "maybe_gen_test.go") = true) (hroom : ∀ t, L.accept t = t) (σ : Sched) (d : Disk) :
    ∃ t t', (L.run σ d).files (b! "maybe.go") = some t ∧ ink t = ink maybeGo ∧
      (L.run σ d).files (b! "maybe_gen_test.go") = some t' ∧ ink t' = ink maybeGenTestGo ∧
      (L.run σ d).stdout = d.stdout ∧ ∀ q, q ≠ b! "maybe.go" → q ≠ b! "maybe_gen_test.go" → (L.run σ d).files q = d.files q := by
  have hd : ∀ code, ink ((L.format code).getD code) = ink code := fun code => by
    cases e : L.format code with
    | none => rfl
    | some u => exact hf _ _ e
  have e1 := fun code d => write_at (L := L) (code := code) (d := d) hc
  have e2 := fun code d => write_at (L := L) (code := code) (d := d) hc'
  refine ⟨_, _, ((write_else (by decide)).trans (e1 _ _)), ?_, e2 _ _, ?_, by simp [GenmaybeLib.run, write_stdout],
    fun q h1 h2 => (write_else h2).trans (write_else h1)⟩
  · rw [hroom, hd, maybeNames_eq, maybeText_ink]
  · rw [hroom, hd, maybeNames_eq, maybeTestText_ink]

/-- C96: running it again, with whatever iteration order, changes nothing. -/
theorem C96_again (σ τ : Sched) (d : Disk) : L.run τ (L.run σ d) = L.run σ d := by
  have hs : ∀ d : Disk, ∀ e : Disk, d.stdout = e.stdout → (∀ q, d.files q = e.files q) → d = e := by
    rintro ⟨f, s⟩ ⟨g, u⟩ h1 h2
    cases h1
    rw [show f = g from funext h2]
  refine hs _ _ (by simp [GenmaybeLib.run, write_stdout]) fun q => ?_
  unfold GenmaybeLib.run
  rw [maybeNames_eq, maybeNames_eq]
  by_cases h2 : q = b! "maybe_gen_test.go"
  · subst h2
    by_cases hc : L.creatable (b! "maybe_gen_test.go") = true
    · rw [write_at hc, write_at hc]
    · rw [Bool.not_eq_true] at hc
      rw [write_closed hc, write_closed hc, write_else (by decide)]
  · rw [write_else h2, write_else h2]
    by_cases h1 : q = b! "maybe.go"
    · subst h1
      by_cases hc : L.creatable (b! "maybe.go") = true
      · rw [write_at hc, write_at hc]
      · rw [Bool.not_eq_true] at hc
        rw [write_closed hc, write_closed hc, write_else h2]
    · rw [write_else h1, write_else h1, write_else h2, write_else h1]

/-- C96: a file that cannot be opened is left as it is. -/
theorem C96_unwritable {fn : GoStr} (h : L.creatable fn = false) (σ : Sched) (d : Disk) : (L.run σ d).files fn = d.files fn := by
  unfold GenmaybeLib.run
  by_cases h2 : fn = b! "maybe_gen_test.go"
  · subst h2
    rw [write_closed h, write_else (by decide)]
  · rw [write_else h2]
    by_cases h1 : fn = b! "maybe.go"
    · subst h1
      rw [write_closed h]
    · rw [write_else h1]

/-- An example: gofmt refuses the test file, which is then written as it is. -/
def exGenmaybe (writable : GoStr → Bool) : GenmaybeLib where
  isPrint r := decide (32 ≤ r)
  format t := if t.length < 2000 then none else some t
  creatable := writable
  accept := id

example (σ : Sched) (d : Disk) : ∃ t, ((exGenmaybe fun _ => true).run σ d).files (b! "maybe.go") = some t ∧ ink t = ink maybeGo := by
  obtain ⟨t, -, h1, h2, -⟩ := C96_files (L := exGenmaybe fun _ => true) (fun t u h => by simp only [exGenmaybe] at h; split_ifs at h; cases h; rfl) rfl rfl (fun _ => rfl) σ d
  exact ⟨t, h1, h2⟩

end Jsval
