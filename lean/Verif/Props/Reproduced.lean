import Verif.Props.MetaSchema
import Verif.Props.Deterministic
import Verif.Lemmas.SameProg
/-!
# gentest on schema.json gives the validator that is checked in (C107)
-/
namespace Jsval
open Go

/-- The formats that jsschema has names for. -/
def knownFormats : List GoStr := [b! "date-time", b! "email", b! "hostname", b! "ipv4", b! "ipv6", b! "uri"]

/-- Builder and generator on schema.json, in one order. -/
def draft4Text (lib : SchemaLib) (isPrint : Nat → Bool) : Option GoStr :=
  match Build lib 0 draft4Resolve 64 sched0 draft4 with
  | .error _ => none
  | .ok b =>
    match process isPrint [⟨[], b.table, some b.root, fun n => decide (n = b! "#")⟩] sched0 with
    | .error _ => none
    | .ok t => some t

/-- `isPrint`, with the printable ASCII characters. -/
def plainOr (isPrint : Nat → Bool) : Nat → Bool := fun c => if Nat.ble 0x20 c && Nat.blt c 0x7f then true else isPrint c

set_option maxRecDepth 10000 in
/-- The text is, up to layout and trailing commas, the one in the file. The kernel computes both. -/
theorem draft4Text_check (lib : SchemaLib) (isPrint : Nat → Bool) :
    sameProg ((draft4Text { lib with formats := knownFormats } (plainOr isPrint)).bind parseProg) (parseProg testValidatorBody) = true := by
  run_tac do (← Lean.Elab.Tactic.getMainGoal).assign (← Lean.Meta.mkEqRefl (Lean.mkConst ``true))

theorem draft4_targets {n : GoStr} {s1 : Schema} (h : (draft4Resolve n).target = .ok s1) : s1.Keyed := by
  unfold draft4Resolve at h
  split_ifs at h
  · cases h; exact Schema.keyed_of_check _ (by decide +kernel)
  · cases h; exact Schema.keyed_of_check _ (by decide +kernel)
  · cases h; exact Schema.keyed_of_check _ (by decide +kernel)
  · cases h; exact Schema.keyed_of_check _ (by decide +kernel)
  · cases h; exact Schema.keyed_of_check _ (by decide +kernel)
  · cases h; exact Schema.keyed_of_check _ (by decide +kernel)
  · cases h

theorem draft4_keyed (formats : List GoStr) : KeyedAll formats draft4Resolve draft4 :=
  ⟨Schema.keyed_of_check _ (by decide +kernel), fun _ _ _ h => draft4_targets h⟩

/-- C107: the file is what gentest makes of schema.json: in every iteration order gentest ends with status 0 and writes the header followed by
a program that is the one in generated_validator_test.go. (`strconv.IsPrint` is to hold for the printable ASCII characters, `format.Source`
to accept programs and to leave them the same.) -/
theorem C107_reproduced {L : GentestLib} {d : Disk} {src dst text : GoStr} (h1 : L.args[1]? = some src) (h2 : L.args[2]? = some dst)
    (hr : L.readable src = true) (hf : d.files src = some text) (hs : L.readSchema text = some draft4) (hres : L.resolve draft4 = draft4Resolve)
    (hfmt : L.lib.formats = knownFormats) (hsame : ∀ n, L.same n = true ↔ n = b! "#") (hpr : ∀ c, 0x20 ≤ c → c < 0x7f → L.isPrint c = true)
    (hform : ∀ t p, parseProg t = some p → ∃ u, L.format t = some u ∧ parseProg u = some p) (hc : L.creatable dst = true)
    (hacc : ∀ t, L.accept t = t) :
    ∃ N, ∀ fuel, N ≤ fuel → ∀ σ, ∃ d' code, L.run fuel σ d = (.exit 0, d') ∧ Saved dst d d' (testHeader ++ code) ∧
      parseProg code = parseProg testValidatorBody := by
  have hlib : L.lib = { L.lib with formats := knownFormats } := by rw [← hfmt]
  have hprint : L.isPrint = plainOr L.isPrint := by
    funext c
    unfold plainOr
    split_ifs with h
    · simp only [Bool.and_eq_true, Nat.ble_eq, Nat.blt_eq] at h
      exact hpr c h.1 h.2
    · rfl
  have hsame' : L.same = fun n => decide (n = b! "#") := by
    funext n
    rw [Bool.eq_iff_iff, hsame, decide_eq_true_eq]
  have hcheck := eq_of_sameProg (draft4Text_check L.lib L.isPrint)
  rw [← hlib, ← hprint] at hcheck
  obtain ⟨p, mem, hp, -⟩ := file_runs
  rw [hp] at hcheck ⊢
  unfold draft4Text at hcheck
  rcases e1 : Build L.lib 0 draft4Resolve 64 sched0 draft4 with e | b
  · rw [e1] at hcheck; cases hcheck
  rw [e1] at hcheck
  simp only at hcheck
  rcases e2 : process L.isPrint [⟨[], b.table, some b.root, fun n => decide (n = b! "#")⟩] sched0 with e | t
  · rw [e2] at hcheck; cases hcheck
  rw [e2] at hcheck
  simp only [Option.bind_some] at hcheck
  have hne : draft4 ≠ .nil := by unfold draft4; exact fun h => by cases h
  rw [build_eq_withCtx hne] at e1
  obtain ⟨N, hN⟩ := C108_any_order e1
  obtain ⟨u, hu, hpu⟩ := hform t p hcheck
  refine ⟨N, fun fuel hfuel σ => ?_⟩
  obtain ⟨b', hb'⟩ := hN fuel hfuel (σ.sub 0)
  have ht : process L.isPrint [⟨[], b'.table, some b'.root, L.same⟩] (σ.sub 1) = .ok t := by
    rw [← e2, hsame']
    exact C108_text (draft4_keyed _) hb' e1 (fun n n' h h' => by simp only [decide_eq_true_eq] at h h'; rw [h, h']) _ _ _ _
  refine ⟨_, u, run_zero.2 ⟨src, u, h1, ⟨text, draft4, b', t, hr, hf, hs, ?_, ht, hu⟩, save_zero.2 ⟨dst, h2, hc, rfl⟩⟩, ?_, hpu⟩
  · rw [hres, build_eq_withCtx hne, hb']
  · rw [hacc]
    exact saved_update _ _

/-- gentest with schema.json at hand. -/
def exDraft4Gentest : GentestLib where
  args := [b! "gentest", b! "schema.json", b! "generated_validator_test.go"]
  readable _ := true
  readSchema text := if text = b! "{}" then some draft4 else none
  lib := { lib0 with formats := knownFormats }
  resolve _ := draft4Resolve
  same n := decide (n = b! "#")
  creatable _ := true
  isPrint c := decide (0x20 ≤ c ∧ c < 0x7f)
  format t := if (parseProg t).isSome then some t else none
  accept := id

/-- All hypotheses of `C107_reproduced` can be met. -/
example : ∃ N, ∀ fuel, N ≤ fuel → ∀ σ, ∃ d' code,
    exDraft4Gentest.run fuel σ ⟨fun p => if p = b! "schema.json" then some (b! "{}") else none, []⟩ = (.exit 0, d') ∧
    d'.files (b! "generated_validator_test.go") = some (testHeader ++ code) ∧ parseProg code = parseProg testValidatorBody := by
  obtain ⟨N, h⟩ := C107_reproduced (L := exDraft4Gentest) (d := ⟨fun p => if p = b! "schema.json" then some (b! "{}") else none, []⟩)
    rfl rfl rfl rfl rfl rfl rfl (fun n => decide_eq_true_iff) (fun c h h' => decide_eq_true ⟨h, h'⟩)
    (fun t p h => ⟨t, by simp [exDraft4Gentest, h], h⟩) rfl (fun _ => rfl)
  refine ⟨N, fun fuel hf σ => ?_⟩
  obtain ⟨d', code, a, b, c⟩ := h fuel hf σ
  exact ⟨d', code, a, b.2.1, c⟩

end Jsval
