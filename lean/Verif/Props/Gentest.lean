import Verif.Spec.Gentest
import Verif.Props.Server
/-!
# The generator of the test validator (C93)
-/
namespace Jsval
open Go
variable {L : GentestLib} {fuel : Nat} {σ : Sched} {d d' : Disk}

theorem save_zero {out : GoStr} : L.save d out = (.exit 0, d') ↔
    ∃ dst, L.args[2]? = some dst ∧ L.creatable dst = true ∧
      d' = { d with files := fun q => if q = dst then some (L.accept out) else d.files q } := by
  unfold GentestLib.save
  cases e : L.args[2]? with
  | none => simp
  | some path =>
    by_cases hc : L.creatable path = true
    · simp only [if_pos hc, Prod.mk.injEq, true_and]
      exact ⟨fun h => ⟨path, rfl, hc, h.symm⟩, fun ⟨_, h1, _, h⟩ => (by cases h1; exact h.symm)⟩
    · simp only [if_neg hc]
      exact ⟨fun h => (by cases h), fun ⟨_, h1, h2, _⟩ => (by cases h1; exact absurd h2 hc)⟩

theorem saved_update (dst t : GoStr) : Saved dst d { d with files := fun q => if q = dst then some t else d.files q } t :=
  ⟨rfl, by simp, fun q hq => by simp [hq]⟩

theorem run_zero : L.run fuel σ d = (.exit 0, d') ↔
    ∃ src code, L.args[1]? = some src ∧ L.Makes fuel σ d src code ∧ L.save d (testHeader ++ code) = (.exit 0, d') := by
  constructor
  · intro h
    unfold GentestLib.run at h
    split at h
    · cases h
    · next src h1 =>
      split at h
      · cases h
      · next text h2 =>
        split at h
        · cases h
        · next s h3 =>
          split at h
          · next e _ => cases e with
            | stop e => cases e <;> cases h
            | diverge => cases h
          · next b h4 =>
            split at h
            · next e _ => cases e <;> cases h
            · next t h5 =>
              split at h
              · cases h
              · next u h6 =>
                split_ifs at h2 with hr
                exact ⟨src, u, h1, ⟨text, s, b, t, hr, h2, h3, h4, h5, h6⟩, h⟩
  · rintro ⟨src, code, h1, ⟨text, s, b, t, hr, h2, h3, h4, h5, h6⟩, h⟩
    unfold GentestLib.run
    simp only [h1, if_pos hr, h2, h3, h4, h5, h6, h]

/-- C93: the exit status is 0 exactly if there is a schema file and an output file among the arguments, code can be made from the schema
and the output can be opened. -/
theorem C93_status : (∃ d', L.run fuel σ d = (.exit 0, d')) ↔
    ∃ src dst code, L.args[1]? = some src ∧ L.args[2]? = some dst ∧ L.Makes fuel σ d src code ∧ L.creatable dst = true := by
  constructor
  · rintro ⟨d', h⟩
    obtain ⟨src, code, h1, hm, hs⟩ := run_zero.1 h
    obtain ⟨dst, h2, hc, -⟩ := save_zero.1 hs
    exact ⟨src, dst, code, h1, h2, hm, hc⟩
  · rintro ⟨src, dst, code, h1, h2, hm, hc⟩
    exact ⟨_, run_zero.2 ⟨src, code, h1, hm, save_zero.2 ⟨dst, h2, hc, rfl⟩⟩⟩

/-- C93: in this case the output holds the header of a test file and the code, as far as the operating system takes it, and nothing else is
changed. -/
theorem C93_output {src dst code : GoStr} (h1 : L.args[1]? = some src) (h2 : L.args[2]? = some dst) (hm : L.Makes fuel σ d src code)
    (hc : L.creatable dst = true) : ∃ d', L.run fuel σ d = (.exit 0, d') ∧
      Saved dst d d' (L.accept (b! "package jsval_test\n\nimport \"github.com/lestrrat-go/jsval\"\n" ++ code)) :=
  ⟨_, run_zero.2 ⟨src, code, h1, hm, save_zero.2 ⟨dst, h2, hc, rfl⟩⟩, saved_update ..⟩

/-- C93: with any other exit status nothing has changed (unlike the command, which may have truncated its output, C78). -/
theorem C93_failure {e : CliEnd} (h : L.run fuel σ d = (e, d')) (he : e ≠ .exit 0) : d' = d := by
  unfold GentestLib.run at h
  repeat' split at h
  all_goals first
    | (cases h; rfl)
    | skip
  unfold GentestLib.save at h
  split at h
  · cases h; rfl
  · split_ifs at h
    · cases h; exact absurd rfl he
    · cases h; rfl

/-- The program as a server with the schema file as the body of the request. -/
def GentestLib.toServer (L : GentestLib) (s : Schema) : ServerLib Unit where
  readSchema := L.readSchema
  decode _ := some ()
  lib := L.lib
  resolve _ := L.resolve s
  same := L.same
  isPrint := L.isPrint
  format := L.format
  parses := true
  execute := none

/-- C93: if the schema is in the fragment that builder and generator carry over, its references lead somewhere, are finitely many and cannot
go on forever at one place, and the output can be written, then (given enough fuel) the exit status is 0 and the output is the header followed
by a program that, when run, sets up a validator `V0` that accepts exactly the documents valid for the schema. -/
theorem C93_program {ext : Ext} {cls : DocClass} {src dst text : GoStr} {s : Schema} (h1 : L.args[1]? = some src) (h2 : L.args[2]? = some dst)
    (hr : L.readable src = true) (hfile : d.files src = some text) (hread : L.readSchema text = some s)
    (hres : Resolves L.lib.formats (L.resolve s) s) (hfaith : Faithful ext L.lib.formats cls (L.resolve s) s)
    (hground : Grounded (L.resolve s) s)
    (hsame : ∀ fuel σ b, BuildWithCtx L.lib 0 (L.resolve s) fuel σ s = .ok b → ∀ n c, alookup n b.table = some c →
      L.same n = true → c = b.root)
    (hlayout : ∀ t p, parseProg t = some p → ∃ u, L.format t = some u ∧ parseProg u = some p)
    (hc : L.creatable dst = true) (hroom : ∀ t, L.accept t = t) :
    ∃ fuel, ∀ fuel', fuel ≤ fuel' → ∀ σ, ∃ d' code p mem, L.run fuel' σ d = (.exit 0, d') ∧ Saved dst d d' (testHeader ++ code) ∧
      parseProg code = some p ∧ p.run = some mem ∧
      ∃ jv c', alookup (b! "V0") mem.vars = some (.jv jv) ∧ jv.name = b! "V0" ∧ jv.root = some c' ∧
        (∃ R, Meaning ext (L.resolve s) s R) ∧ ∀ R, Meaning ext (L.resolve s) s R → ∀ v, Doc cls v → ∀ τ,
          (s.Valid ext R v ↔ Returns ext mem.env c' τ v .ok v) ∧ (¬ s.Valid ext R v ↔ ∃ e, Returns ext mem.env c' τ v (.err e) v) := by
  obtain ⟨N, h⟩ := C83_answer (L := L.toServer s) (body := text) (ext := ext) (cls := cls) (m := ()) hread rfl hres hfaith hground hsame hlayout
  refine ⟨N, fun fuel' hf σ => ?_⟩
  obtain ⟨ct, code, p, mem, ha, -, hp, hrun, hv⟩ := h fuel' hf σ
  obtain ⟨s', m, b, t, e1, -, e3, e4, e5⟩ := (C82_success code).1 ⟨_, _, ha⟩
  have : s' = s := Option.some.inj (e1.symm.trans hread)
  subst this
  have hb : Build L.lib 0 (L.resolve s') fuel' (σ.sub 0) s' = .ok b := by
    cases s' with
    | nil => cases e3
    | mk _ => exact e3
  obtain ⟨d', hd, hsv⟩ := C93_output (L := L) h1 h2 ⟨text, s', b, t, hr, hfile, hread, hb, e4, e5⟩ hc
  rw [hroom] at hsv
  exact ⟨d', code, p, mem, hd, hsv, hp, hrun, hv⟩

/-- The linked list schema, whose root is registered as `#`, with these arguments. -/
def exGentest (args : List GoStr) : GentestLib where
  args := args
  readable _ := true
  readSchema text := if text = b! "{}" then some exListSchema else none
  lib := lib0
  resolve _ := exListResolve
  same n := decide (n = b! "#")
  creatable p := decide (p ≠ b! "/")
  isPrint _ := true
  format t := if (parseProg t).isSome then some t else none
  accept := id

/-- Status 0; too few arguments; a file that is no schema; an output that cannot be opened. -/
example : ((exGentest [b! "gentest", b! "s.json", b! "v_test.go"]).run 10 sched0 exDisk).1 = .exit 0 ∧
    ((exGentest [b! "gentest", b! "s.json"]).run 10 sched0 exDisk).1 = .exit 2 ∧
    ((exGentest [b! "gentest", b! "v.go", b! "v_test.go"]).run 10 sched0 exDisk).1 = .exit 1 ∧
    ((exGentest [b! "gentest", b! "s.json", b! "/"]).run 10 sched0 exDisk).1 = .exit 1 := by decide +kernel

/-- All hypotheses of `C93_program` hold for the linked list. -/
example (ext : Ext) : ∃ fuel, ∀ fuel', fuel ≤ fuel' → ∀ σ, ∃ d' code p mem,
    (exGentest [b! "gentest", b! "s.json", b! "v_test.go"]).run fuel' σ exDisk = (.exit 0, d') ∧
    d'.files (b! "v_test.go") = some (testHeader ++ code) ∧ parseProg code = some p ∧ p.run = some mem ∧
    ∃ jv c', alookup (b! "V0") mem.vars = some (.jv jv) ∧ jv.root = some c' ∧
      ∀ R, Meaning ext exListResolve exListSchema R → ∀ v, Doc anyDoc v → ∀ τ,
        (exListSchema.Valid ext R v ↔ Returns ext mem.env c' τ v .ok v) := by
  have huse : exListSchema.UsesRef lib0.formats (b! "#") :=
    .child rfl (.property (.inl (by simp)) (List.mem_cons_self ..)) (.here (by decide) rfl)
  obtain ⟨N, h⟩ := C93_program (L := exGentest [b! "gentest", b! "s.json", b! "v_test.go"]) (d := exDisk) (ext := ext) (cls := anyDoc)
    rfl rfl rfl rfl rfl exList_resolves
    (exJobs_faithful ext anyDoc _ (List.mem_cons_self ..)) (exJobs_grounded _ (List.mem_cons_self ..))
    (fun fuel σ b hb n c hc hs => by
      have hn : n = b! "#" := by simpa [exGentest] using hs
      subst hn
      rw [root_registered hb huse] at hc
      cases hc
      rfl)
    (fun t p h => ⟨t, by simp [exGentest, h], h⟩) (by decide) (fun _ => rfl)
  refine ⟨N, fun fuel' hf σ => ?_⟩
  obtain ⟨d', code, p, mem, h1, h2, h3, h4, jv, c', a, -, b, -, e⟩ := h fuel' hf σ
  exact ⟨d', code, p, mem, h1, h2.2.1, h3, h4, jv, c', a, b, fun R hR v hv τ => (e R hR v hv τ).1⟩

end Jsval
