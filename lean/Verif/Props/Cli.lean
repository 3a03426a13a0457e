import Verif.Lemmas.Cli
import Verif.Props.Pipeline
/-!
# The command: exit status and output, names, generated code (C78-C80)
-/
namespace Jsval
open Go
variable {D V P : Type} {L : CliLib D V P} {fuel : Nat} {σ : Sched} {d d' : Disk} {o : CliOpts}

/-! ## C78 -/

theorem run_succeeds {jobs : List Job} {code : GoStr} (h : Succeeds L fuel σ d o jobs code) :
    L.run fuel σ d = (.exit 0, (outDisk o d).write o.outFile (L.accept code)) := by
  obtain ⟨hf, ⟨text, m, ss, h1, h2, h3, h4, h5⟩, ho, t, ht, hu⟩ := h
  unfold CliLib.run
  simp only [hf, load_iff.2 ⟨text, h1, h2, h3, h4⟩, buildAll_order.2 ⟨jobs, rfl, h5⟩]
  unfold outDisk
  by_cases hc : o.outFile = []
  · rw [if_neg (by simp [hc]), if_pos hc]
    simp only [CliLib.emit, ht, hu]
  · rw [if_pos hc, if_pos (ho hc), if_neg hc]
    simp only [CliLib.emit, ht, hu]

/-- C78: the exit status is 0 exactly if everything goes well. -/
theorem C78_status : (∃ d', L.run fuel σ d = (.exit 0, d')) ↔ ∃ o jobs code, Succeeds L fuel σ d o jobs code := by
  constructor
  · rintro ⟨d', h⟩
    unfold CliLib.run at h
    split at h
    · cases h
    · next o hf =>
      split at h
      · cases h
      · next m ss hl =>
        obtain ⟨text, h1, h2, h3, h4⟩ := load_iff.1 hl
        split at h
        · next e _ => cases e with
          | stop e => cases e <;> cases h
          | diverge => cases h
        · next vals hb =>
          obtain ⟨jobs, rfl, h5⟩ := buildAll_order.1 hb
          have fin : ∀ d0, L.emit d0 o (jobs.map Job.val) (σ.sub 1) = (.exit 0, d') →
              ∃ t, process L.isPrint (jobs.map Job.val) (σ.sub 1) = .ok t ∧ ∃ u, L.format t = some u := by
            intro d0 h
            unfold CliLib.emit at h
            split at h
            · next e _ => cases e <;> cases h
            · next t ht =>
              split at h
              · cases h
              · next u hu => exact ⟨t, ht, u, hu⟩
          by_cases hc : o.outFile = []
          · rw [if_neg (by simp [hc])] at h
            obtain ⟨t, ht, u, hu⟩ := fin _ h
            exact ⟨o, jobs, u, hf, ⟨text, m, ss, h1, h2, h3, h4, h5⟩, fun h => absurd hc h, t, ht, hu⟩
          · rw [if_pos hc] at h
            split_ifs at h with hcr
            · obtain ⟨t, ht, u, hu⟩ := fin _ h
              exact ⟨o, jobs, u, hf, ⟨text, m, ss, h1, h2, h3, h4, h5⟩, fun _ => hcr, t, ht, hu⟩
            · cases h
  · rintro ⟨o, jobs, code, h⟩
    exact ⟨_, run_succeeds h⟩

/-- C78: if everything goes well, the code goes to the output, as far as the operating system takes it, and nothing else
is changed. -/
theorem C78_output_partial {jobs : List Job} {code : GoStr} (h : Succeeds L fuel σ d o jobs code) :
    ∃ d', L.run fuel σ d = (.exit 0, d') ∧ Emitted o d d' (L.accept code) :=
  ⟨_, run_succeeds h, emitted_write o d _⟩

/-- C78: in all other cases nothing is changed, or the output file is now empty. -/
theorem C78_failure_partial {e : CliEnd} (h : L.run fuel σ d = (e, d')) (he : e ≠ .exit 0) :
    d' = d ∨ ∃ o, L.flags = some o ∧ o.outFile ≠ [] ∧ Emitted o d d' [] := by
  have fin : ∀ o d0 vals, L.emit d0 o vals (σ.sub 1) = (e, d') → d' = d0 := by
    intro o d0 vals h
    unfold CliLib.emit at h
    split at h
    · cases h; rfl
    · split at h
      · cases h; rfl
      · cases h; exact absurd rfl he
  unfold CliLib.run at h
  split at h
  · cases h; exact .inl rfl
  · next o hf =>
    split at h
    · cases h; exact .inl rfl
    · split at h
      · cases h; exact .inl rfl
      · split_ifs at h with h1 h2
        · have := fin _ _ _ h
          subst this
          refine .inr ⟨o, hf, h1, by simp [Disk.create, h1], fun _ => by simp [Disk.create], fun q hq => ?_⟩
          rcases hq with hq | hq
          · exact absurd hq h1
          · simp [Disk.create, hq]
        · cases h; exact .inl rfl
        · exact .inl (fin _ _ _ h)

/-- A file with the two schemas of `Props/Pipeline.lean`, selected by pointers, with this output file and prefix. The disk
accepts these bytes. Layout keeps the text if it can be read. -/
def exCli (out pfx : GoStr) (accept : GoStr → GoStr) : CliLib (Option GoStr) GoStr GoStr where
  flags := some ⟨b! "s.json", out, [b! "/list", b! "/bag"], pfx⟩
  readable _ := true
  decode _ := some none
  readSchema _ := none
  pointer := some
  get p _ := some p
  asMap v := some (some v)
  extract m := if m = some (b! "/list") then some exListSchema else if m = some (b! "/bag") then some exBagSchema else none
  lib := lib0
  resolve _ := exListResolve
  same _ _ := false
  creatable _ := true
  isPrint _ := true
  format t := if (parseProg t).isSome then some t else none
  accept := accept

/-- The schema file, and an output file from an earlier run. -/
def exDisk : Disk := ⟨fun p => if p = b! "s.json" then some (b! "{}") else if p = b! "v.go" then some (b! "package v") else none, []⟩

/-- C78 as worded is false: with a prefix that is no identifier there is no code, which is noticed when the output file has
been truncated. -/
theorem C78_truncated_refuted : ((exCli (b! "v.go") (b! "my-") id).run 10 sched0 exDisk).1 = .exit 1 ∧
    exDisk.files (b! "v.go") = some (b! "package v") ∧
    ((exCli (b! "v.go") (b! "my-") id).run 10 sched0 exDisk).2.files (b! "v.go") = some [] := by decide +kernel

/-- C78 as worded is false: if the disk is full the exit status is still 0. -/
theorem C78_written_refuted : ((exCli (b! "v.go") (b! "My") (fun _ => [])).run 10 sched0 exDisk).1 = .exit 0 ∧
    ((exCli (b! "v.go") (b! "My") (fun _ => [])).run 10 sched0 exDisk).2.files (b! "v.go") = some [] := by decide +kernel

/-- The same run with room on the disk. -/
example : ((exCli (b! "v.go") (b! "My") id).run 10 sched0 exDisk).1 = .exit 0 ∧
    (((exCli (b! "v.go") (b! "My") id).run 10 sched0 exDisk).2.files (b! "v.go")).any
      (fun t => decide (b! "var My1 *jsval.JSVal" <:+: t)) = true := by decide +kernel

/-! ## C79 -/

/-- C79, where it holds: with a good prefix, or none, the names of the validators are the prefix (or `V`) and their number;
these are distinct identifiers and clash with nothing else in the generated code. -/
theorem C79_names_partial {jobs : List Job} {code : GoStr} (h : Succeeds L fuel σ d o jobs code) (hp : GoodPrefix o.pfx) :
    valNames (jobs.map Job.val) = (List.range jobs.length).map (cliVar o) ∧ GoodNames (jobs.map Job.val) := by
  obtain ⟨text, m, ss, -, -, -, -, hb⟩ := h.built
  have hn := valNames_cli (o := o) (jobs := jobs) (fun i j hj => (hb.each i j hj).2.2.1)
  refine ⟨hn, ?_, ?_, ?_⟩
  · intro x hx
    rw [hn, List.mem_map] at hx
    obtain ⟨i, -, rfl⟩ := hx
    exact (cliVar_good hp i).1
  · rw [hn]
    exact List.nodup_range.map (fun i j => cliVar_inj)
  · intro x hx
    rw [hn, List.mem_map] at hx
    obtain ⟨i, -, rfl⟩ := hx
    exact (cliVar_good hp i).2 _

/-- `My` is a good prefix, and so is `R2D` (but not `R2`). -/
example : GoodPrefix (b! "My") ∧ GoodPrefix (b! "R2D") ∧ ¬ GoodPrefix (b! "R2") := by
  refine ⟨⟨⟨?_, by decide⟩, ?_⟩, ⟨⟨?_, by decide⟩, ?_⟩, ?_⟩
  · intro c t h; cases h; decide
  · intro t h; simp at h
  · intro c t h; cases h; decide
  · intro t h
    have : t = b! "2D" := by simpa using h.symm
    subst this
    decide
  · intro h
    obtain ⟨c, hc, hd⟩ := h.notRef (b! "2") rfl
    simp only [List.mem_cons, List.not_mem_nil, or_false] at hc
    subst hc
    revert hd
    decide

/-- C79, exactly. The names are the prefix and the number, whatever the prefix, and they are distinct. If the prefix consists of
letters and digits and does not start with a digit, then the generated code can be run exactly if none of these names is that of a
variable that the generator makes for a reference. (The schemas are as in C75, and layout keeps the program.) -/
theorem C79_exact {ext : Ext} {cls : DocClass} {jobs : List Job} {code : GoStr} (h : Succeeds L fuel σ d o jobs code) :
    valNames (jobs.map Job.val) = (List.range jobs.length).map (cliVar o) ∧ (valNames (jobs.map Job.val)).Nodup ∧
    ∀ (_ : WordPrefix o.pfx) (resolve : Resolver) (_ : AllBuilt L.lib resolve jobs) (_ : OneRoot resolve (jobs.map (·.schema)))
      (_ : ∀ j ∈ jobs, Faithful ext L.lib.formats cls resolve j.schema)
      (_ : ∀ j ∈ jobs, ∀ n c, firstRef n (jobs.map Job.val) = some c → j.same n = true → c = j.built.root)
      (_ : ∀ t u, L.format t = some u → parseProg u = parseProg t),
      (∃ p mem, parseProg code = some p ∧ p.run = some mem) ↔
        ¬ ∃ i < jobs.length, ∃ k < (refNames (jobs.map Job.val)).length, cliVar o i = b! "R" ++ natDec k := by
  obtain ⟨text, m, ss, -, -, -, -, hb⟩ := h.built
  have hn := valNames_cli (o := o) (jobs := jobs) (fun i j hj => (hb.each i j hj).2.2.1)
  have hd : (valNames (jobs.map Job.val)).Nodup := by
    rw [hn]
    exact List.nodup_range.map (fun i j => cliVar_inj)
  refine ⟨hn, hd, fun hw resolve hall hone hf hsame hlay => ?_⟩
  obtain ⟨t, ht, hfmt⟩ := h.code
  rw [hlay t code hfmt]
  have hid : ∀ x ∈ valNames (jobs.map Job.val), GoIdent x := by
    intro x hx
    rw [hn, List.mem_map] at hx
    obtain ⟨i, -, rfl⟩ := hx
    exact (cliVar_word hw i).1
  constructor
  · rintro ⟨p, mem, hp, hr⟩ ⟨i, hi, k, hk, e⟩
    have htab : ∀ v ∈ jobs.map Job.val, (v.refs.map (·.1)).Nodup := by
      intro v hv
      obtain ⟨j, hj, rfl⟩ := List.mem_map.1 hv
      obtain ⟨_, _, hbj⟩ := hall j hj
      exact built_nodup hbj
    have := (process_clash htab hid ht hp hr).2 (cliVar o i) (by rw [hn]; exact List.mem_map_of_mem (List.mem_range.2 hi))
    exact this.2 ((cliVar_own hw i _).2 ⟨k, hk, e⟩)
  · intro hc
    have hg : GoodNames (jobs.map Job.val) := by
      refine ⟨hid, hd, fun x hx => ?_⟩
      rw [hn, List.mem_map] at hx
      obtain ⟨i, hi, rfl⟩ := hx
      refine ⟨(cliVar_word hw i).2.1, fun ho => ?_⟩
      obtain ⟨k, hk, e⟩ := (cliVar_own hw i _).1 ho
      exact hc ⟨i, List.mem_range.1 hi, k, hk, e⟩
    obtain ⟨t', p, mem, h1, h2, -, h3, -⟩ := process_setUp (isPrint := L.isPrint) (jobs_supported hall hone hf hg hsame) (σ.sub 1)
    rw [ht] at h1
    cases h1
    exact ⟨p, mem, h2, h3⟩

/-- With the prefix `R5`, which is not a good one, the names are `R50` and `R51`, and the references of the two schemas have `R0`, `R1`
and `R2`: C79 applies, and the code can be run. -/
example (ext : Ext) : ∃ jobs code p mem, Succeeds (exCli (b! "v.go") (b! "R5") id) 10 sched0 exDisk
      ⟨b! "s.json", b! "v.go", [b! "/list", b! "/bag"], b! "R5"⟩ jobs code ∧
    ¬ GoodPrefix (b! "R5") ∧ (refNames (jobs.map Job.val)).length = 3 ∧ parseProg code = some p ∧ p.run = some mem := by
  have hmem : ∀ s ∈ [exListSchema, exBagSchema], ∃ j ∈ exJobs, j.schema = s := by
    intro s hs
    simp only [List.mem_cons, List.not_mem_nil, or_false] at hs
    rcases hs with rfl | rfl
    · exact ⟨_, List.mem_cons_self .., rfl⟩
    · exact ⟨_, List.mem_cons_of_mem _ (List.mem_cons_self ..), rfl⟩
  have hb : ∃ vals, (exCli (b! "v.go") (b! "R5") id).buildAll ⟨b! "s.json", b! "v.go", [b! "/list", b! "/bag"], b! "R5"⟩
      ((exCli (b! "v.go") (b! "R5") id).resolve none) 10 (sched0.sub 0) 0 [exListSchema, exBagSchema] = .ok vals ∧
      (refNames vals).length = 3 ∧ vals.length = 2 ∧
      ((process (fun _ => true) vals (sched0.sub 1)).toOption.bind (exCli (b! "v.go") (b! "R5") id).format).isSome = true :=
    ⟨_, rfl, by decide +kernel, rfl, by decide +kernel⟩
  obtain ⟨vals, hb, hl, h2, ht⟩ := hb
  obtain ⟨jobs, rfl, hjobs⟩ := buildAll_order.1 hb
  rw [List.length_map] at h2
  obtain ⟨code, hc⟩ := Option.isSome_iff_exists.1 ht
  obtain ⟨t, ht, hu⟩ := Option.bind_eq_some_iff.1 hc
  replace ht : process (fun _ => true) (jobs.map Job.val) (sched0.sub 1) = .ok t := by
    cases e : process (fun _ => true) (jobs.map Job.val) (sched0.sub 1) with
    | ok x => rw [e] at ht; cases ht; rfl
    | error e' => rw [e] at ht; cases ht
  have hs : Succeeds (exCli (b! "v.go") (b! "R5") id) 10 sched0 exDisk ⟨b! "s.json", b! "v.go", [b! "/list", b! "/bag"], b! "R5"⟩ jobs code :=
    ⟨rfl, ⟨b! "{}", none, [exListSchema, exBagSchema], rfl, rfl, rfl,
      .parts (by simp) (.cons ⟨_, _, _, rfl, rfl, rfl, rfl⟩ (.cons ⟨_, _, _, rfl, rfl, rfl, rfl⟩ .nil)), hjobs⟩, fun _ => rfl, t,
      ht, hu⟩
  obtain ⟨p, mem, h4, h5⟩ := ((C79_exact (ext := ext) (cls := anyDoc) hs).2.2 ⟨by intro c t h; cases h; decide, by decide⟩ exListResolve
    (fun j hj => by
      obtain ⟨i, hi, e⟩ := List.mem_iff_getElem.1 hj
      have := hjobs.each i j (by rw [List.getElem?_eq_getElem hi, e])
      exact ⟨10, (sched0.sub 0).sub i, by rw [this.2.1]; exact this.1⟩)
    (by rw [hjobs.schemas]; exact exJobs_oneRoot)
    (fun j hj => by
      obtain ⟨k, hk, e⟩ := hmem j.schema (by rw [← hjobs.schemas]; exact List.mem_map_of_mem hj)
      rw [← e]; exact exJobs_faithful ext anyDoc k hk)
    (fun j hj n c _ h => by
      obtain ⟨i, hi, e⟩ := List.mem_iff_getElem.1 hj
      rw [(hjobs.each i j (by rw [List.getElem?_eq_getElem hi, e])).2.2.2] at h
      cases h)
    (fun t u h => by
      simp only [exCli] at h
      split_ifs at h
      cases h
      rfl)).2 (by
    rintro ⟨i, hi, k, hk, e⟩
    rw [hl] at hk
    rw [h2] at hi
    have : ∀ i < 2, ∀ k < 3, cliVar ⟨b! "s.json", b! "v.go", [b! "/list", b! "/bag"], b! "R5"⟩ i ≠ b! "R" ++ natDec k := by decide
    exact this i hi k hk e)
  refine ⟨jobs, code, p, mem, hs, fun h => ?_, hl, h4, h5⟩
  obtain ⟨c, hc, hd⟩ := h.notRef (b! "5") rfl
  simp only [List.mem_cons, List.not_mem_nil, or_false] at hc
  subst hc
  revert hd
  decide

/-- C79 as worded is false: with the prefix `R` the exit status is 0 and the code can be read, but it declares variables
twice, so that it cannot be run. -/
theorem C79_refuted : ((exCli (b! "v.go") (b! "R") id).run 10 sched0 exDisk).1 = .exit 0 ∧
    (((exCli (b! "v.go") (b! "R") id).run 10 sched0 exDisk).2.files (b! "v.go")).any
      (fun t => (parseProg t).any (fun p => p.run.isNone && !(p.decls.map (·.name)).dedup.length == p.decls.length)) = true := by
  decide +kernel

/-! ## C80 -/

/-- From a theorem about generated programs to one about the command. -/
theorem command_of {text : GoStr} {m : D} {ss : List Schema} {jobs : List Job} (Q : Schema → Mem → Constraint → Prop)
    (hflags : L.flags = some o) (hread : L.readable o.schema = true) (hfile : d.files o.schema = some text)
    (hdec : L.decode text = some m) (hask : AsksFor L text m o.pointer ss) (hbuilt : BuiltInOrder L o m fuel (σ.sub 0) ss jobs)
    (hp : GoodPrefix o.pfx) (hout : o.outFile ≠ [] → L.creatable o.outFile = true)
    (hlayout : ∀ t p, parseProg t = some p → ∃ u, L.format t = some u ∧ parseProg u = some p) (hroom : ∀ t, L.accept t = t)
    (hgen : AllBuilt L.lib (L.resolve m) jobs → GoodNames (jobs.map Job.val) → jobs.map (·.schema) = ss →
      ∃ t p mem, process L.isPrint (jobs.map Job.val) (σ.sub 1) = .ok t ∧ parseProg t = some p ∧ p.run = some mem ∧
        ∀ (i : Nat) (j : Job) (x : GoStr), jobs[i]? = some j → (valNames (jobs.map Job.val))[i]? = some x →
        ∃ jv c', alookup x mem.vars = some (.jv jv) ∧ jv.name = x ∧ jv.root = some c' ∧ Q j.schema mem c') :
    ∃ d' code p mem, L.run fuel σ d = (.exit 0, d') ∧ Emitted o d d' code ∧ parseProg code = some p ∧ p.run = some mem ∧
      ∀ i s, ss[i]? = some s → ∃ jv c', alookup (cliVar o i) mem.vars = some (.jv jv) ∧ jv.name = cliVar o i ∧ jv.root = some c' ∧
        Q s mem c' := by
  have hall : AllBuilt L.lib (L.resolve m) jobs := by
    intro j hj
    obtain ⟨i, hi, e⟩ := List.mem_iff_getElem.1 hj
    have := hbuilt.each i j (by rw [List.getElem?_eq_getElem hi, e])
    exact ⟨fuel, (σ.sub 0).sub i, by rw [this.2.1]; exact this.1⟩
  have hn := valNames_cli (o := o) (jobs := jobs) (fun i j hj => (hbuilt.each i j hj).2.2.1)
  have hgood : GoodNames (jobs.map Job.val) := by
    refine ⟨?_, ?_, ?_⟩
    · intro x hx
      rw [hn, List.mem_map] at hx
      obtain ⟨i, -, rfl⟩ := hx
      exact (cliVar_good hp i).1
    · rw [hn]
      exact List.nodup_range.map (fun i j => cliVar_inj)
    · intro x hx
      rw [hn, List.mem_map] at hx
      obtain ⟨i, -, rfl⟩ := hx
      exact (cliVar_good hp i).2 _
  obtain ⟨t, p, mem, h1, h2, h3, h4⟩ := hgen hall hgood hbuilt.schemas
  obtain ⟨u, hu, hup⟩ := hlayout t p h2
  have hs : Succeeds L fuel σ d o jobs u := ⟨hflags, ⟨text, m, ss, hread, hfile, hdec, hask, hbuilt⟩, hout, t, h1, hu⟩
  obtain ⟨d', hr, he⟩ := C78_output_partial hs
  rw [hroom] at he
  refine ⟨d', u, p, mem, hr, he, hup, h3, fun i s hi => ?_⟩
  rw [← hbuilt.schemas, List.getElem?_map] at hi
  obtain ⟨j, hj, rfl⟩ := Option.map_eq_some_iff.1 hi
  have hlt : i < jobs.length := by
    by_contra hc
    rw [List.getElem?_eq_none (by omega)] at hj
    cases hj
  exact h4 i j (cliVar o i) hj (by rw [hn, List.getElem?_map, List.getElem?_range hlt]; rfl)

/-- C80: if the schemas that the user asks for are in the fragment that builder and generator carry over, have been built, and
the output can be written, then the exit status is 0, and the output is a Go program that, when run, sets up for schema number `i` a
validator named after the prefix and `i` that accepts exactly the documents that are valid for the schema. -/
theorem C80_command {ext : Ext} {cls : DocClass} {text : GoStr} {m : D} {ss : List Schema} {jobs : List Job}
    (hflags : L.flags = some o) (hread : L.readable o.schema = true) (hfile : d.files o.schema = some text)
    (hdec : L.decode text = some m) (hask : AsksFor L text m o.pointer ss) (hbuilt : BuiltInOrder L o m fuel (σ.sub 0) ss jobs)
    (hone : OneRoot (L.resolve m) ss) (hfaith : ∀ s ∈ ss, Faithful ext L.lib.formats cls (L.resolve m) s)
    (hground : ∀ s ∈ ss, Grounded (L.resolve m) s) (hp : GoodPrefix o.pfx)
    (hsame : ∀ j ∈ jobs, ∀ n c, firstRef n (jobs.map Job.val) = some c → j.same n = true → c = j.built.root)
    (hout : o.outFile ≠ [] → L.creatable o.outFile = true)
    (hlayout : ∀ t p, parseProg t = some p → ∃ u, L.format t = some u ∧ parseProg u = some p) (hroom : ∀ t, L.accept t = t) :
    ∃ d' code p mem, L.run fuel σ d = (.exit 0, d') ∧ Emitted o d d' code ∧ parseProg code = some p ∧ p.run = some mem ∧
      ∀ i s, ss[i]? = some s → ∃ jv c', alookup (cliVar o i) mem.vars = some (.jv jv) ∧ jv.name = cliVar o i ∧ jv.root = some c' ∧
        (∃ R, Meaning ext (L.resolve m) s R) ∧ ∀ R, Meaning ext (L.resolve m) s R → ∀ v, Doc cls v → ∀ τ,
          (s.Valid ext R v ↔ Returns ext mem.env c' τ v .ok v) ∧ (¬ s.Valid ext R v ↔ ∃ e, Returns ext mem.env c' τ v (.err e) v) := by
  refine command_of (fun s mem c' => (∃ R, Meaning ext (L.resolve m) s R) ∧ ∀ R, Meaning ext (L.resolve m) s R → ∀ v, Doc cls v → ∀ τ,
      (s.Valid ext R v ↔ Returns ext mem.env c' τ v .ok v) ∧ (¬ s.Valid ext R v ↔ ∃ e, Returns ext mem.env c' τ v (.err e) v))
    hflags hread hfile hdec hask hbuilt hp hout hlayout hroom (fun hall hgood hss => ?_)
  have hmem : ∀ j ∈ jobs, j.schema ∈ ss := fun j hj => by rw [← hss]; exact List.mem_map_of_mem hj
  exact C75_generated hall (by rw [hss]; exact hone) (fun j hj => hfaith _ (hmem j hj)) (fun j hj => hground _ (hmem j hj)) hgood hsame _

/-- The two schemas of the example meet all hypotheses; the validators are `My0` and `My1`. -/
example (ext : Ext) : ∃ d' code p mem, (exCli (b! "v.go") (b! "My") id).run 10 sched0 exDisk = (.exit 0, d') ∧
    d'.files (b! "v.go") = some code ∧ parseProg code = some p ∧ p.run = some mem ∧
    ∃ jv c', alookup (b! "My1") mem.vars = some (.jv jv) ∧ jv.root = some c' ∧
      ∀ R, Meaning ext exListResolve exBagSchema R → ∀ v, Doc anyDoc v → ∀ τ,
        (exBagSchema.Valid ext R v ↔ Returns ext mem.env c' τ v .ok v) := by
  have hmem : ∀ s ∈ [exListSchema, exBagSchema], ∃ j ∈ exJobs, j.schema = s := by
    intro s hs
    simp only [List.mem_cons, List.not_mem_nil, or_false] at hs
    rcases hs with rfl | rfl
    · exact ⟨_, List.mem_cons_self .., rfl⟩
    · exact ⟨_, List.mem_cons_of_mem _ (List.mem_cons_self ..), rfl⟩
  have hb : ∃ vals, (exCli (b! "v.go") (b! "My") id).buildAll ⟨b! "s.json", b! "v.go", [b! "/list", b! "/bag"], b! "My"⟩
      ((exCli (b! "v.go") (b! "My") id).resolve none) 10 (sched0.sub 0) 0 [exListSchema, exBagSchema] = .ok vals := ⟨_, rfl⟩
  obtain ⟨vals, hb⟩ := hb
  obtain ⟨jobs, -, hjobs⟩ := buildAll_order.1 hb
  obtain ⟨d', code, p, mem, h1, h2, h3, h4, h5⟩ := C80_command (L := exCli (b! "v.go") (b! "My") id) (ext := ext) (cls := anyDoc) (d := exDisk)
    (text := b! "{}") (σ := sched0) (fuel := 10)
    rfl rfl rfl rfl
    (.parts (by simp) (.cons ⟨_, _, _, rfl, rfl, rfl, rfl⟩ (.cons ⟨_, _, _, rfl, rfl, rfl, rfl⟩ .nil))) hjobs exJobs_oneRoot
    (fun s hs => by obtain ⟨j, hj, rfl⟩ := hmem s hs; exact exJobs_faithful ext anyDoc j hj)
    (fun s hs => by obtain ⟨j, hj, rfl⟩ := hmem s hs; exact exJobs_grounded j hj)
    ⟨⟨by intro c t h; cases h; decide, by decide⟩, by intro t h; simp at h⟩
    (fun j hj n c _ h => by
      obtain ⟨i, hi, e⟩ := List.mem_iff_getElem.1 hj
      rw [(hjobs.each i j (by rw [List.getElem?_eq_getElem hi, e])).2.2.2] at h
      cases h)
    (fun _ => rfl) (fun t p h => ⟨t, by simp [exCli, h], h⟩) (fun _ => rfl)
  obtain ⟨jv, c', a, -, b, -, e⟩ := h5 1 exBagSchema rfl
  exact ⟨d', code, p, mem, h1, h2.file (by simp), h3, h4, jv, c', a, b, fun R hR v hv τ => (e R hR v hv τ).1⟩

end Jsval
