import Verif.Lemmas.Parts
import Verif.Props.Buildable
/-!
# References in selected parts of a file (C115)
-/
namespace Jsval
open Go

section
variable {D V P : Type} {L : CliLib D V P} {d : Disk} {o : CliOpts} {fuel : Nat} {σ : Sched}

/-- C115: what references stand for when the command succeeds, whatever the schemas. In the validator for a selected part, a name is
registered with something built from what it points to in the file; except that `#` stands for the part itself if the part uses it. -/
theorem C115_references {jobs : List Job} {code : GoStr} (h : Succeeds L fuel σ d o jobs code) :
    ∃ text m, d.files o.schema = some text ∧ L.decode text = some m ∧ ∀ i j, jobs[i]? = some j →
      BuiltFrom L.lib i j.schema j.built.root ∧ ∀ n c, alookup n j.built.table = some c →
        (n = b! "#" ∧ j.schema.UsesRef L.lib.formats (b! "#") ∧ c = j.built.root) ∨
        (¬ (n = b! "#" ∧ j.schema.UsesRef L.lib.formats (b! "#")) ∧
          ∃ s1, (L.resolve m n).target = .ok s1 ∧ BuiltFrom L.lib i s1 c) := by
  obtain ⟨text, m, ss, -, h1, h2, -, hb⟩ := h.built
  refine ⟨text, m, h1, h2, fun i j hj => ?_⟩
  have p := builtParts (hb.each i j hj).1
  refine ⟨p.root, fun n c hc => ?_⟩
  by_cases hr : IsRoot L.lib.formats j.schema n
  · exact .inl ⟨hr.1, hr.2, p.self n c hc hr⟩
  · exact .inr ⟨hr, p.others n c hc hr⟩

/-- The same command with another way to resolve references builds the same validators if both ways agree on the names that have to be
resolved. -/
theorem buildAll_congr {resolve resolve' : Resolver} : ∀ (ss : List Schema) (i : Nat),
    (∀ s ∈ ss, ∀ n, MustResolve L.lib.formats resolve s n → resolve' n = resolve n) →
    L.buildAll o resolve' fuel σ i ss = L.buildAll o resolve fuel σ i ss
  | [], i, _ => rfl
  | s :: ss, i, h => by
    rw [CliLib.buildAll, CliLib.buildAll, built_congr (h s (by simp)), buildAll_congr ss (i + 1) fun s hs => h s (by simp [hs])]

theorem buildAll_lib {L' : CliLib D V P} (h1 : L'.lib = L.lib) (h2 : L'.same = L.same) {resolve : Resolver} : ∀ (ss : List Schema) (i : Nat),
    L'.buildAll o resolve fuel σ i ss = L.buildAll o resolve fuel σ i ss
  | [], i => rfl
  | s :: ss, i => by rw [CliLib.buildAll, CliLib.buildAll, h1, h2, buildAll_lib h1 h2]

/-- C115: the command on selected parts. As `C80_complete`, with no condition on what `#` is in the file: each part that gets to `#` uses it
itself, and then it stands for the part. -/
theorem C115_command {ext : Ext} {cls : DocClass} {text : GoStr} {m : D} {ss : List Schema}
    (hflags : L.flags = some o) (hread : L.readable o.schema = true) (hfile : d.files o.schema = some text)
    (hdec : L.decode text = some m) (hask : AsksFor L text m o.pointer ss)
    (hres : ∀ s ∈ ss, PartResolves L.lib.formats (L.resolve m) s)
    (hone : ∀ s ∈ ss, ∀ s' ∈ ss, Reaches (L.resolve m) s (b! "#") → Reaches (L.resolve m) s' (b! "#") → s = s')
    (hfaith : ∀ s ∈ ss, Faithful ext L.lib.formats cls (L.resolve m) s)
    (hground : ∀ s ∈ ss, Grounded (L.resolve m) s) (hp : GoodPrefix o.pfx)
    (hsame : ∀ fuel σ jobs, BuiltInOrder L o m fuel σ ss jobs → ∀ j ∈ jobs, ∀ n c, firstRef n (jobs.map Job.val) = some c →
      j.same n = true → c = j.built.root)
    (hout : o.outFile ≠ [] → L.creatable o.outFile = true)
    (hlayout : ∀ t p, parseProg t = some p → ∃ u, L.format t = some u ∧ parseProg u = some p) (hroom : ∀ t, L.accept t = t) :
    ∃ fuel, ∀ fuel', fuel ≤ fuel' → ∀ σ, ∃ d' code p mem, L.run fuel' σ d = (.exit 0, d') ∧ Emitted o d d' code ∧
      parseProg code = some p ∧ p.run = some mem ∧
      ∀ i s, ss[i]? = some s → ∃ jv c', alookup (cliVar o i) mem.vars = some (.jv jv) ∧ jv.name = cliVar o i ∧ jv.root = some c' ∧
        (∃ R, Meaning ext (L.resolve m) s R) ∧ ∀ R, Meaning ext (L.resolve m) s R → ∀ v, Doc cls v → ∀ τ,
          (s.Valid ext R v ↔ Returns ext mem.env c' τ v .ok v) ∧ (¬ s.Valid ext R v ↔ ∃ e, Returns ext mem.env c' τ v (.err e) v) := by
  obtain ⟨s0, hs0⟩ : ∃ s0, ∀ s ∈ ss, Reaches (L.resolve m) s (b! "#") → s = s0 := by
    by_cases h : ∃ s ∈ ss, Reaches (L.resolve m) s (b! "#")
    · obtain ⟨s, hs, hr⟩ := h
      exact ⟨s, fun s' hs' hr' => hone s' hs' s hs hr' hr⟩
    · exact ⟨.nil, fun s hs hr => absurd ⟨s, hs, hr⟩ h⟩
  let r := (L.resolve m).rootAt s0
  let L' : CliLib D V P := { L with resolve := fun _ => r }
  have hr' : ∀ s ∈ ss, Resolves L.lib.formats r s := fun s hs =>
    { finite := by
        obtain ⟨F, hF⟩ := (hres s hs).finite
        exact ⟨F, fun n hn => hF n (reaches_rootAt.1 hn)⟩
      known := (hres s hs).known
      resolved := fun n hn hne => by
        obtain ⟨s1, h1, h2⟩ := (hres s hs).resolved n (reaches_rootAt.1 hn) hne
        exact ⟨s1, by simp only [r, Resolver.rootAt, if_neg hne]; exact h1, h2⟩
      root := fun hn => .inl ((hres s hs).root (reaches_rootAt.1 hn))
      rootSame := fun s1 hn h1 => by
        rw [hs0 s hs (reaches_rootAt.1 hn)]
        cases h1
        rfl }
  have hagree : ∀ s ∈ ss, ∀ n, MustResolve L.lib.formats r s n → L.resolve m n = r n := by
    intro s hs n hn
    obtain ⟨h1, h2⟩ := mustResolve_reaches (hr' s hs) hn
    have hne : n ≠ b! "#" := fun e => h2 ⟨e, (hres s hs).root (by rw [← e]; exact reaches_rootAt.1 h1)⟩
    simp only [r, Resolver.rootAt, if_neg hne]
  have hb : ∀ fuel σ, L'.buildAll o (L'.resolve m) fuel σ 0 ss = L.buildAll o (L.resolve m) fuel σ 0 ss := fun fuel σ => by
    rw [buildAll_lib (L := L) (L' := L') rfl rfl]
    exact (buildAll_congr (L := L) ss 0 hagree).symm
  have hsel : ∀ {l : List GoStr} {ss : List Schema}, AsksFor L text m l ss → AsksFor L' text m l ss := by
    intro l ss h
    cases h with
    | whole h => exact .whole h
    | parts h1 h2 => exact .parts h1 (h2.imp fun p s h => by obtain ⟨x1, x2, x3, x4⟩ := h; exact ⟨x1, x2, x3, x4⟩)
  obtain ⟨N, hN⟩ := C80_complete (L := L') (o := o) (d := d) (ext := ext) (cls := cls) (text := text) (m := m) (ss := ss)
    hflags hread hfile hdec (hsel hask) hr'
    ⟨fun s hs h s1 h1 => (hr' s hs).rootSame s1 h h1, fun s hs s' hs' h h' => hone s hs s' hs' (reaches_rootAt.1 h) (reaches_rootAt.1 h')⟩
    (fun s hs => ⟨(hfaith s hs).conforms, (hfaith s hs).expresses,
      fun n s1 h1 h2 => (hfaith s hs).refConforms n s1 (reaches_rootAt.1 h1) (refersTo_rootAt.1 h2),
      fun n s1 h1 h2 => (hfaith s hs).refExpresses n s1 (reaches_rootAt.1 h1) (refersTo_rootAt.1 h2)⟩)
    (fun s hs => grounded_rootAt.2 (hground s hs)) hp
    (fun fuel σ jobs hj => hsame fuel σ jobs ⟨hj.schemas, fun i j hi => by
      obtain ⟨h1, h2⟩ := hj.each i j hi
      refine ⟨?_, h2⟩
      rw [← h1]
      exact built_congr (lib := L.lib) (hagree j.schema (by rw [← hj.schemas]; exact List.mem_map_of_mem (List.mem_of_getElem? hi))) fuel (σ.sub i)⟩)
    hout hlayout hroom
  refine ⟨N, fun fuel' hf σ => ?_⟩
  obtain ⟨d', code, p, mem, h1, h2, h3, h4, h5⟩ := hN fuel' hf σ
  refine ⟨d', code, p, mem, ?_, h2, h3, h4, fun i s hi => ?_⟩
  · rw [← h1]
    have hl : L'.load d o = some (m, ss) := load_iff.2 ⟨text, hread, hfile, hdec, hsel hask⟩
    have hd : L.load d o = some (m, ss) := load_iff.2 ⟨text, hread, hfile, hdec, hask⟩
    unfold CliLib.run
    rw [show L'.flags = L.flags from rfl, hflags]
    simp only [hl, hd, hb]
    rfl
  · obtain ⟨jv, c', a1, a2, a3, ⟨R, hR⟩, a5⟩ := h5 i s hi
    exact ⟨jv, c', a1, a2, a3, ⟨R, meaning_rootAt.1 hR⟩, fun R hR => a5 R (meaning_rootAt.2 hR)⟩

/-- C115 where it holds: parts that do not get to `#`. The validators accept exactly the documents that are valid when each reference stands for
what it points to in the file. -/
theorem C115_file {ext : Ext} {cls : DocClass} {text : GoStr} {m : D} {ss : List Schema}
    (hflags : L.flags = some o) (hread : L.readable o.schema = true) (hfile : d.files o.schema = some text)
    (hdec : L.decode text = some m) (hask : AsksFor L text m o.pointer ss)
    (hno : ∀ s ∈ ss, ¬ FileReaches (L.resolve m) s (b! "#"))
    (hfin : ∀ s ∈ ss, ∃ F : List GoStr, ∀ n, FileReaches (L.resolve m) s n → n ∈ F)
    (hknown : ∀ s ∈ ss, s.TypesKnown ∧
      ∀ n, FileReaches (L.resolve m) s n → ∃ s1, (L.resolve m n).target = .ok s1 ∧ s1.TypesKnown)
    (hfaith : ∀ s ∈ ss, s.Conforms ext L.lib.formats cls ∧ s.Expresses ∧
      ∀ n s1, FileReaches (L.resolve m) s n → (L.resolve m n).target = .ok s1 → s1.Conforms ext L.lib.formats cls ∧ s1.Expresses)
    (hground : ∀ s ∈ ss, Grounded (L.resolve m) s) (hp : GoodPrefix o.pfx)
    (hsame : ∀ fuel σ jobs, BuiltInOrder L o m fuel σ ss jobs → ∀ j ∈ jobs, ∀ n c, firstRef n (jobs.map Job.val) = some c →
      j.same n = true → c = j.built.root)
    (hout : o.outFile ≠ [] → L.creatable o.outFile = true)
    (hlayout : ∀ t p, parseProg t = some p → ∃ u, L.format t = some u ∧ parseProg u = some p) (hroom : ∀ t, L.accept t = t) :
    ∃ fuel, ∀ fuel', fuel ≤ fuel' → ∀ σ, ∃ d' code p mem, L.run fuel' σ d = (.exit 0, d') ∧ Emitted o d d' code ∧
      parseProg code = some p ∧ p.run = some mem ∧
      ∀ i s, ss[i]? = some s → ∃ jv c', alookup (cliVar o i) mem.vars = some (.jv jv) ∧ jv.name = cliVar o i ∧ jv.root = some c' ∧
        (∃ R, FileMeaning ext (L.resolve m) s R) ∧ ∀ R, FileMeaning ext (L.resolve m) s R → ∀ v, Doc cls v → ∀ τ,
          (s.Valid ext R v ↔ Returns ext mem.env c' τ v .ok v) ∧ (¬ s.Valid ext R v ↔ ∃ e, Returns ext mem.env c' τ v (.err e) v) := by
  have href : ∀ s ∈ ss, ∀ n s1, Reaches (L.resolve m) s n → RefersTo (L.resolve m) s n s1 →
      FileReaches (L.resolve m) s n ∧ (L.resolve m n).target = .ok s1 := by
    intro s hs n s1 h1 h2
    have h1' := (reaches_file (hno s hs)).1 h1
    cases h2 with
    | root => exact absurd h1' (hno s hs)
    | resolved _ h2 => exact ⟨h1', h2⟩
  obtain ⟨N, hN⟩ := C115_command (ext := ext) (cls := cls) hflags hread hfile hdec hask
    (fun s hs => ⟨(hfin s hs).imp fun F h n hn => h n ((reaches_file (hno s hs)).1 hn), (hknown s hs).1,
      fun n hn _ => (hknown s hs).2 n ((reaches_file (hno s hs)).1 hn), fun hn => absurd ((reaches_file (hno s hs)).1 hn) (hno s hs)⟩)
    (fun s hs _ _ h => absurd ((reaches_file (hno s hs)).1 h) (hno s hs))
    (fun s hs => ⟨(hfaith s hs).1, (hfaith s hs).2.1, fun n s1 h1 h2 => ((hfaith s hs).2.2 n s1 (href s hs n s1 h1 h2).1 (href s hs n s1 h1 h2).2).1,
      fun n s1 h1 h2 => ((hfaith s hs).2.2 n s1 (href s hs n s1 h1 h2).1 (href s hs n s1 h1 h2).2).2⟩)
    hground hp hsame hout hlayout hroom
  refine ⟨N, fun fuel' hf σ => ?_⟩
  obtain ⟨d', code, p, mem, h1, h2, h3, h4, h5⟩ := hN fuel' hf σ
  refine ⟨d', code, p, mem, h1, h2, h3, h4, fun i s hi => ?_⟩
  obtain ⟨jv, c', a1, a2, a3, ⟨R, hR⟩, a5⟩ := h5 i s hi
  have hs := hno s (List.mem_of_getElem? hi)
  exact ⟨jv, c', a1, a2, a3, ⟨R, (meaning_file hs).1 hR⟩, fun R hR => a5 R ((meaning_file hs).2 hR)⟩
end

/-! ## The linked list, selected in a file that is a schema for arrays -/

/-- The references in the file: `#` is the file, which starts with `"type": "array"`. -/
def exListFile : Resolver := exListResolve.rootAt (.mk { type := [.array] })

/-- The command with `-p /list` on that file. -/
def exPartCli : CliLib (Option GoStr) GoStr GoStr :=
  { exCli [] [] id with flags := some ⟨b! "s.json", [], [b! "/list"], []⟩, resolve := fun _ => exListFile }

theorem exList_part : PartResolves lib0.formats exListFile exListSchema :=
  { finite := ⟨_, fun _ h => exList_reaches (reaches_rootAt.1 h)⟩
    known := exList_resolves.known
    resolved := fun n h hne => by
      obtain ⟨s1, h1, h2⟩ := exList_resolves.resolved n (reaches_rootAt.1 h) hne
      exact ⟨s1, by simp only [exListFile, Resolver.rootAt, if_neg hne]; exact h1, h2⟩
    root := fun _ => .child rfl (.property (.inl (by simp)) (List.mem_cons_self ..)) (.here (by decide) rfl) }

/-- All hypotheses of `C115_command` hold for it. -/
theorem exPart_runs (ext : Ext) : ∃ fuel, ∀ fuel', fuel ≤ fuel' → ∀ σ, ∃ d' code p mem, exPartCli.run fuel' σ exDisk = (.exit 0, d') ∧
    d'.stdout = code ∧ parseProg code = some p ∧ p.run = some mem ∧
    ∃ jv c', alookup (b! "V0") mem.vars = some (.jv jv) ∧ jv.root = some c' ∧ (∃ R, Meaning ext exListFile exListSchema R) ∧
      ∀ R, Meaning ext exListFile exListSchema R → ∀ v, Doc anyDoc v → ∀ τ,
        (exListSchema.Valid ext R v ↔ Returns ext mem.env c' τ v .ok v) := by
  have hf := exJobs_faithful ext anyDoc _ (List.mem_cons_self ..)
  obtain ⟨N, h⟩ := C115_command (ext := ext) (cls := anyDoc) (o := ⟨b! "s.json", [], [b! "/list"], []⟩) (d := exDisk) (L := exPartCli)
    (text := b! "{}") (m := none) (ss := [exListSchema]) rfl rfl rfl rfl
    (.parts (by simp) (.cons ⟨_, _, _, rfl, rfl, rfl, rfl⟩ .nil))
    (fun s hs => by rw [List.mem_singleton.1 hs]; exact exList_part)
    (fun s hs s' hs' _ _ => by rw [List.mem_singleton.1 hs, List.mem_singleton.1 hs'])
    (fun s hs => by
      rw [List.mem_singleton.1 hs]
      exact ⟨hf.conforms, hf.expresses, fun n s1 h1 h2 => hf.refConforms n s1 (reaches_rootAt.1 h1) (refersTo_rootAt.1 h2),
        fun n s1 h1 h2 => hf.refExpresses n s1 (reaches_rootAt.1 h1) (refersTo_rootAt.1 h2)⟩)
    (fun s hs => by rw [List.mem_singleton.1 hs]; exact grounded_rootAt.2 (exJobs_grounded _ (List.mem_cons_self ..)))
    ⟨⟨by intro c t h; simp at h, by simp⟩, by intro t h; simp at h⟩
    (fun _ _ _ hj j hj' n c _ h => by
      obtain ⟨i, hi, e⟩ := List.mem_iff_getElem.1 hj'
      rw [(hj.each i j (by rw [List.getElem?_eq_getElem hi, e])).2.2.2] at h
      cases h)
    (fun h => absurd rfl h)
    (fun t p h => ⟨t, by simp [exPartCli, exCli, h], h⟩) (fun _ => rfl)
  refine ⟨N, fun fuel' hf σ => ?_⟩
  obtain ⟨d', code, p, mem, h1, h2, h3, h4, h5⟩ := h fuel' hf σ
  obtain ⟨jv, c', a, -, b, e1, e⟩ := h5 0 exListSchema rfl
  exact ⟨d', code, p, mem, h1, by simpa [exDisk] using h2.stdout, h3, h4, jv, c', a, b, e1, fun R hR v hv τ => (e R hR v hv τ).1⟩

/-- `{"next": {}}` -/
def exNext : GoVal := .map false [(b! "next", .map false [])]

theorem exNext_doc : Doc anyDoc exNext := by
  refine .obj _ (by simp) (fun _ _ _ h => h.elim) fun k x h => ?_
  simp only [List.mem_singleton, Prod.mk.injEq] at h
  rw [h.2]
  exact .obj _ (by simp) (fun _ _ _ h => h.elim) fun k x h => by simp at h

/-- Next to `{"type": "object", "properties": …}` there is nothing else to an object. -/
theorem exList_valid_iff {ext : Ext} {R : GoStr → GoVal → Prop} {kvs : List (GoStr × GoVal)} :
    exListSchema.Valid ext R (.map false kvs) ↔
      (∀ x, (b! "next", x) ∈ kvs → R (b! "#") x) ∧ ∀ x, (b! "val", x) ∈ kvs → R (b! "v") x := by
  have hv : ∀ n x, n ≠ [] → (Schema.Valid ext R (.mk { reference := n }) x ↔ R n x) := by
    intro n x hn
    rw [Schema.valid_mk]
    constructor
    · intro h; exact h.reference hn
    · intro h
      exact ⟨fun _ => h, fun e => absurd e hn, fun e => absurd e hn, fun e => absurd e hn⟩
  rw [exListSchema, Schema.valid_mk]
  constructor
  · intro h
    have ho := (h.value rfl).object kvs rfl
    exact ⟨fun x hx => (hv _ x (by decide)).1 (ho.properties (b! "next") _ x (List.mem_cons_self ..) hx),
      fun x hx => (hv _ x (by decide)).1 (ho.properties (b! "val") _ x (List.mem_cons_of_mem _ (List.mem_cons_self ..)) hx)⟩
  · rintro ⟨h1, h2⟩
    refine ⟨fun h => absurd rfl h, fun _ => ?_, fun _ _ => ⟨.object, List.mem_cons_self .., .object _⟩, fun _ => ⟨fun h => absurd rfl h,
      (fun f h => by cases h), (fun f h => by cases h), (fun f h => by cases h), fun kvs' e => ?_⟩⟩
    · constructor <;> simp [SchemaF.map]
    · cases e
      constructor
      case properties =>
        intro k p x hp hx
        simp only [SchemaF.map, List.map_cons, List.map_nil, List.mem_cons, List.not_mem_nil, or_false, Prod.mk.injEq] at hp
        rcases hp with ⟨rfl, rfl⟩ | ⟨rfl, rfl⟩
        · exact (hv _ x (by decide)).2 (h1 x hx)
        · exact (hv _ x (by decide)).2 (h2 x hx)
      all_goals simp [SchemaF.map, Extra.map]

/-- C115 is false as worded: the part `{"type": "object", "properties": {"next": {"$ref": "#"}, …}}` of a file that starts with
`"type": "array"`. In the file `#` is a schema for arrays, so `{"next": {}}` is not valid; the validator accepts it. -/
theorem C115_refuted (ext : Ext) :
    (∃ fuel, ∀ fuel', fuel ≤ fuel' → ∀ σ, ∃ d' code p mem, exPartCli.run fuel' σ exDisk = (.exit 0, d') ∧
      d'.stdout = code ∧ parseProg code = some p ∧ p.run = some mem ∧
      ∃ jv c', alookup (b! "V0") mem.vars = some (.jv jv) ∧ jv.root = some c' ∧ ∀ τ, Returns ext mem.env c' τ exNext .ok exNext) ∧
    ∀ R, FileMeaning ext (exPartCli.resolve none) exListSchema R → ¬ exListSchema.Valid ext R exNext := by
  constructor
  · obtain ⟨N, h⟩ := exPart_runs ext
    refine ⟨N, fun fuel' hf σ => ?_⟩
    obtain ⟨d', code, p, mem, h1, h2, h3, h4, jv, c', h5, h6, ⟨R, hR⟩, h7⟩ := h fuel' hf σ
    refine ⟨d', code, p, mem, h1, h2, h3, h4, jv, c', h5, h6, fun τ => (h7 R hR _ exNext_doc τ).1 ?_⟩
    have hroot : ∀ v, R (b! "#") v ↔ exListSchema.Valid ext R v :=
      hR _ _ (.root (.child rfl (.property (List.mem_cons_self ..)) (.here (by decide) rfl))) .root
    rw [exNext, exList_valid_iff]
    refine ⟨fun x hx => ?_, fun x hx => by simp at hx⟩
    simp only [List.mem_singleton, Prod.mk.injEq, true_and] at hx
    rw [hx, hroot, exList_valid_iff]
    exact ⟨fun x hx => by simp at hx, fun x hx => by simp at hx⟩
  · intro R hR h
    rw [exNext, exList_valid_iff] at h
    have hroot := hR (b! "#") (.mk { type := [.array] }) (.root (.child rfl (.property (List.mem_cons_self ..)) (.here (by decide) rfl))) rfl
    have h2 := (hroot _).1 (h.1 _ (List.mem_cons_self ..))
    rw [Schema.valid_mk] at h2
    obtain ⟨t, ht, h3⟩ := h2.type rfl (by simp [SchemaF.map])
    simp only [SchemaF.map, List.mem_singleton] at ht
    subst ht
    cases h3

/-! ## The other schema, selected in that file -/

theorem exBag_file {n : GoStr} (h : FileReaches exListFile exBagSchema n) : Reaches exListResolve exBagSchema n := by
  induction h with
  | root h => exact .root h
  | @step n k s1 _ h1 h2 ih =>
    have hne : n ≠ b! "#" := by rcases exBag_reaches ih with rfl | rfl <;> decide
    simp only [exListFile, Resolver.rootAt, if_neg hne] at h1
    exact .step ih (.resolved hne h1) h2

theorem exBag_target {n : GoStr} {s1 : Schema} (h : FileReaches exListFile exBagSchema n) (h1 : (exListFile n).target = .ok s1) :
    RefersTo exListResolve exListSchema n s1 ∧ RefersTo exListResolve exBagSchema n s1 := by
  have hne : n ≠ b! "#" := by rcases exBag_reaches (exBag_file h) with rfl | rfl <;> decide
  simp only [exListFile, Resolver.rootAt, if_neg hne] at h1
  exact ⟨.resolved hne h1, .resolved hne h1⟩

/-- All hypotheses of `C115_file` hold for `-p /bag`. -/
example (ext : Ext) : ∃ fuel, ∀ fuel', fuel ≤ fuel' → ∀ σ, ∃ d' code p mem,
    ({ exPartCli with flags := some ⟨b! "s.json", [], [b! "/bag"], []⟩ } : CliLib _ _ _).run fuel' σ exDisk = (.exit 0, d') ∧
    d'.stdout = code ∧ parseProg code = some p ∧ p.run = some mem ∧
    ∃ jv c', alookup (b! "V0") mem.vars = some (.jv jv) ∧ jv.root = some c' ∧ (∃ R, FileMeaning ext exListFile exBagSchema R) ∧
      ∀ R, FileMeaning ext exListFile exBagSchema R → ∀ v, Doc anyDoc v → ∀ τ,
        (exBagSchema.Valid ext R v ↔ Returns ext mem.env c' τ v .ok v) := by
  have hj : (⟨[], exBagSchema, 8, exBagBuilt, fun _ => false⟩ : Job) ∈ exJobs := List.mem_cons_of_mem _ (List.mem_cons_self ..)
  obtain ⟨N, h⟩ := C115_file (ext := ext) (cls := anyDoc) (o := ⟨b! "s.json", [], [b! "/bag"], []⟩) (d := exDisk)
    (L := { exPartCli with flags := some ⟨b! "s.json", [], [b! "/bag"], []⟩ })
    (text := b! "{}") (m := none) (ss := [exBagSchema]) rfl rfl rfl rfl
    (.parts (by simp) (.cons ⟨_, _, _, rfl, rfl, rfl, rfl⟩ .nil))
    (fun s hs h => by
      rw [List.mem_singleton.1 hs] at h
      rcases exBag_reaches (exBag_file h) with h | h <;> exact absurd h (by decide))
    (fun s hs => by
      rw [List.mem_singleton.1 hs]
      exact ⟨[b! "v", b! "w"], fun n h => by simpa using exBag_reaches (exBag_file h)⟩)
    (fun s hs => by
      rw [List.mem_singleton.1 hs]
      refine ⟨?_, fun n h => ?_⟩
      · refine .node _ rfl (by simp [PrimType.Known]) fun c hc => ?_
        cases hc with
        | property h =>
          simp only [List.mem_singleton, Prod.mk.injEq] at h
          rw [h.2]
          exact .ref _ (by decide)
        | _ h => simp at h
      · rcases exBag_reaches (exBag_file h) with rfl | rfl
        · exact ⟨_, rfl, exListResolve_typesKnown (exBag_target h rfl).1⟩
        · exact ⟨_, rfl, exListResolve_typesKnown (exBag_target h rfl).1⟩)
    (fun s hs => by
      rw [List.mem_singleton.1 hs]
      exact ⟨exBag_conforms _ _ _, exBag_expresses, fun n s1 h1 h2 =>
        ⟨exListResolve_conforms _ _ _ (by decide) (exBag_target h1 h2).1, exListResolve_expresses (exBag_target h1 h2).1⟩⟩)
    (fun s hs => by rw [List.mem_singleton.1 hs]; exact grounded_rootAt.2 (exJobs_grounded _ hj))
    ⟨⟨by intro c t h; simp at h, by simp⟩, by intro t h; simp at h⟩
    (fun _ _ _ hj j hj' n c _ h => by
      obtain ⟨i, hi, e⟩ := List.mem_iff_getElem.1 hj'
      rw [(hj.each i j (by rw [List.getElem?_eq_getElem hi, e])).2.2.2] at h
      cases h)
    (fun h => absurd rfl h)
    (fun t p h => ⟨t, by simp [exPartCli, exCli, h], h⟩) (fun _ => rfl)
  refine ⟨N, fun fuel' hf σ => ?_⟩
  obtain ⟨d', code, p, mem, h1, h2, h3, h4, h5⟩ := h fuel' hf σ
  obtain ⟨jv, c', a, -, b, e1, e⟩ := h5 0 exBagSchema rfl
  exact ⟨d', code, p, mem, h1, by simpa [exDisk] using h2.stdout, h3, h4, jv, c', a, b, e1, fun R hR v hv τ => (e R hR v hv τ).1⟩

/-- The command that selects the linked list succeeds, so that `C115_references` applies to it. -/
example : (exPartCli.run 10 sched0 exDisk).1 = .exit 0 := by decide +kernel

end Jsval
