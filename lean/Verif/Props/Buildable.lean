import Verif.Lemmas.BuildOk
import Verif.Props.Cli
/-!
# When a validator can be built (C81)
-/
namespace Jsval
variable {lib : SchemaLib} {m : Nat} {resolve : Resolver}

/-! ## C81 -/

theorem build_eq_withCtx {s : Schema} (h : s ≠ .nil) (fuel : Nat) (σ : Sched) :
    Build lib m resolve fuel σ s = BuildWithCtx lib m resolve fuel σ s := by
  cases s with
  | nil => exact absurd rfl h
  | mk s => rfl

/-- C81: a validator that was built had everything it takes, whatever the map iteration orders. -/
theorem C81_necessary {s : Schema} {fuel : Nat} {σ : Sched} {b : Built} (h : Build lib m resolve fuel σ s = .ok b) :
    CanBuild lib.formats resolve s := by
  cases s with
  | nil => cases h
  | mk s => exact canBuild_of_built h

/-- C81: exactly when building succeeds. Suppose the reference names that can be reached lie in a finite set. If
everything it takes is there, then building succeeds, whatever the map iteration orders; if not, it returns an error or
panics, whatever the map iteration orders. -/
theorem C81_succeeds (F : List GoStr) (s : Schema) (h0 : ∀ n, s.Mentions n → n ∈ F)
    (hF : ∀ n ∈ F, ∀ s1, (resolve n).target = .ok s1 → ∀ k, s1.Mentions k → k ∈ F) :
    ∃ fuel, ∀ fuel', fuel ≤ fuel' →
      (CanBuild lib.formats resolve s → ∀ σ, ∃ b, Build lib m resolve fuel' σ s = .ok b) ∧
      (¬ CanBuild lib.formats resolve s → ∀ σ, ∃ e, Build lib m resolve fuel' σ s = .error (.stop e)) := by
  obtain ⟨N, hN⟩ := C62_terminates (lib := lib) (m := m) F s h0 hF
  refine ⟨N, fun fuel' hf => ⟨fun hc σ => ?_, fun hc σ => ?_⟩⟩
  · have hs : s ≠ .nil := by rintro rfl; cases hc.self
    rw [build_eq_withCtx hs]
    refine built_of_canBuild hc fuel' σ ?_
    rw [← build_eq_withCtx hs, (hN σ).2 fuel' hf]
    exact (hN σ).1
  · rcases hb : Build lib m resolve fuel' σ s with e | b
    · cases e with
      | stop e => exact ⟨e, rfl⟩
      | diverge =>
        rw [(hN σ).2 fuel' hf] at hb
        exact absurd hb (hN σ).1
    · exact absurd (C81_necessary hb) hc

theorem mentions_of_usesRef {formats : List GoStr} {n : GoStr} {s : Schema} (h : s.UsesRef formats n) : s.Mentions n := by
  induction h with
  | here h1 h2 => exact .here h1 h2
  | child h1 h2 _ ih => exact .child h1 (uses_child h2) ih

theorem buildable_of_conforms {ext : Ext} {formats : List GoStr} {cls : DocClass} {s : Schema} (h : s.Conforms ext formats cls)
    (hk : s.TypesKnown) : s.Buildable formats := by
  induction h with
  | ref s h => exact .ref _ h
  | node s h1 h2 h3 ih =>
    cases hk with
    | ref _ h => exact absurd h1 h
    | node _ _ k1 k2 =>
      refine .node _ h1 (fun t ht => ?_) (fun _ hi => ?_) (fun c hc => ih c (uses_child hc) (k2 c (uses_child hc)))
      · rcases ht with ht | ⟨ht, hs⟩
        · exact k1 t ht
        · rcases h2.typed with h | h | h
          · exact absurd ht h
          · exact absurd hs (h.1 t)
          · rw [h.2.2 t hs]
            simp [PrimType.Known]
      · simpa using h2.items [] hi

theorem mustResolve_reaches {formats : List GoStr} {s : Schema} (hr : Resolves formats resolve s) {n : GoStr}
    (h : MustResolve formats resolve s n) : Reaches resolve s n ∧ ¬ (n = b! "#" ∧ s.UsesRef formats (b! "#")) := by
  induction h with
  | root h1 h2 => exact ⟨.root (mentions_of_usesRef h1), fun h => h2 h.1⟩
  | @step n s1 k _ h1 h2 h3 ih =>
    refine ⟨.step ih.1 ?_ (mentions_of_usesRef h2), h3⟩
    by_cases hn : n = b! "#"
    · subst hn
      rw [hr.rootSame s1 ih.1 h1]
      exact .root
    · exact .resolved hn h1

/-- C81: in particular a schema of the conforming fragment can be built if its types are known and its references lead
somewhere and are finitely many. -/
theorem C81_conforming {ext : Ext} {cls : DocClass} {s : Schema} (hc : s.Conforms ext lib.formats cls)
    (hrc : ∀ n s1, Reaches resolve s n → RefersTo resolve s n s1 → s1.Conforms ext lib.formats cls)
    (hr : Resolves lib.formats resolve s) :
    CanBuild lib.formats resolve s ∧ ∃ fuel, ∀ fuel', fuel ≤ fuel' → ∀ σ, ∃ b, BuildWithCtx lib m resolve fuel' σ s = .ok b := by
  classical
  have hcan : CanBuild lib.formats resolve s := by
    refine ⟨buildable_of_conforms hc hr.known, fun n hn => ?_⟩
    obtain ⟨h1, h2⟩ := mustResolve_reaches hr hn
    by_cases hne : n = b! "#"
    · subst hne
      rcases hr.root h1 with h | ⟨s1, h⟩
      · exact absurd ⟨rfl, h⟩ h2
      · have := hr.rootSame s1 h1 h
        subst this
        exact ⟨_, h, buildable_of_conforms hc hr.known⟩
    · obtain ⟨s1, h, hk⟩ := hr.resolved n h1 hne
      exact ⟨s1, h, buildable_of_conforms (hrc n s1 h1 (.resolved hne h)) hk⟩
  refine ⟨hcan, ?_⟩
  obtain ⟨F, hF⟩ := hr.finite
  obtain ⟨N, hN⟩ := C81_succeeds (lib := lib) (m := m) (resolve := resolve) (F.filter (fun n => Reaches resolve s n)) s
    (fun n hn => List.mem_filter.2 ⟨hF n (.root hn), by simpa using Reaches.root hn⟩)
    (fun n hn s1 h1 k hk => by
      have hre : Reaches resolve s n := by simpa using (List.mem_filter.1 hn).2
      have : Reaches resolve s k := by
        refine .step hre ?_ hk
        by_cases hne : n = b! "#"
        · subst hne
          rw [hr.rootSame s1 hre h1]
          exact .root
        · exact .resolved hne h1
      exact List.mem_filter.2 ⟨hF k this, by simpa using this⟩)
  have hs : s ≠ .nil := by rintro rfl; cases hcan.self
  refine ⟨N, fun fuel' hf σ => ?_⟩
  rw [← build_eq_withCtx hs]
  exact (hN fuel' hf).1 hcan σ

/-- The linked list can be built. -/
example : CanBuild lib0.formats exListResolve exListSchema :=
  C81_necessary (m := 7) (fuel := 10) (σ := sched0) (b := exListBuilt) rfl

/-- These cannot: an unknown type, an empty list of item schemas, a name that is not resolved. -/
example : ¬ CanBuild lib0.formats exListResolve (.mk { type := [.object, .other 9] }) := by
  intro h
  cases h.self with
  | ref _ h => exact absurd rfl h
  | node _ _ h => exact absurd (h (.other 9) (.inl (by simp))) (by simp [PrimType.Known])

example : ¬ CanBuild lib0.formats exListResolve (.mk { items := .list [] }) := by
  intro h
  cases h.self with
  | ref _ h => exact absurd rfl h
  | node _ _ _ h => exact h (.inr ⟨rfl, .items (by simp)⟩) rfl

example : ¬ CanBuild lib0.formats exListResolve (.mk { allOf := [.mk { reference := b! "v" }, .mk { reference := b! "z" }] }) := by
  intro h
  obtain ⟨s1, h1, -⟩ := h.refs (b! "z") (.root (.child rfl (.allOf rfl (List.mem_cons_of_mem _ (List.mem_cons_self ..))) (.here (by decide) rfl)) (by decide))
  cases h1

/-- What does not take part does not matter: beside `allOf`, `oneOf` is not looked at. -/
example : CanBuild lib0.formats exListResolve (.mk { allOf := [.mk { reference := b! "v" }], oneOf := [.nil, .mk { type := [.other 9] }] }) := by
  have : ∃ b, Build lib0 7 exListResolve 10 sched0
      (.mk { allOf := [.mk { reference := b! "v" }], oneOf := [.nil, .mk { type := [.other 9] }] }) = .ok b := ⟨_, rfl⟩
  exact this.elim (fun b h => C81_necessary h)

theorem exList_reaches {n : GoStr} (h : Reaches exListResolve exListSchema n) : n ∈ [b! "#", b! "v", b! "w"] := by
  have hm : ∀ {n s1 k}, RefersTo exListResolve exListSchema n s1 → s1.Mentions k → k ∈ [b! "#", b! "v", b! "w"] := by
    intro n s1 k hr hm
    rcases exListResolve_refersTo hr with ⟨-, rfl⟩ | ⟨-, rfl⟩ | ⟨-, rfl⟩
    · cases hm with
      | here h => exact absurd rfl h
      | child _ hc hm =>
        cases hc with
        | property h =>
          simp only [List.mem_cons, Prod.mk.injEq, List.not_mem_nil, or_false] at h
          rcases h with ⟨-, rfl⟩ | ⟨-, rfl⟩
          all_goals
            cases hm with
            | here _ h => rw [← h]; simp
            | child h => exact absurd h (by decide)
        | _ h => simp at h
    · cases hm with
      | here h => exact absurd rfl h
      | child _ hc hm =>
        cases hc with
        | list h hc =>
          cases h
          simp only [List.mem_singleton] at hc
          subst hc
          cases hm with
          | here _ h => rw [← h]; simp
          | child h => exact absurd h (by decide)
        | tuple h => simp at h
        | _ h => simp at h
    · cases hm with
      | here h => exact absurd rfl h
      | child _ hc hm =>
        cases hc with
        | anyOf h =>
          simp only [List.mem_cons, List.not_mem_nil, or_false] at h
          rcases h with rfl | rfl
          · cases hm with
            | here h => exact absurd rfl h
            | child _ hc _ => cases hc with
              | _ h => simp at h
          · cases hm with
            | here _ h => rw [← h]; simp
            | child h => exact absurd h (by decide)
        | _ h => simp at h
  cases h with
  | root h => exact hm .root h
  | step _ hr h => exact hm hr h

theorem exListResolve_typesKnown {n : GoStr} {s1 : Schema} (h : RefersTo exListResolve exListSchema n s1) : s1.TypesKnown := by
  rcases exListResolve_refersTo h with ⟨-, rfl⟩ | ⟨-, rfl⟩ | ⟨-, rfl⟩
  · refine .node _ rfl (by simp [PrimType.Known]) (fun c hc => ?_)
    cases hc with
    | property h =>
      simp only [List.mem_cons, Prod.mk.injEq, List.not_mem_nil, or_false] at h
      rcases h with ⟨-, rfl⟩ | ⟨-, rfl⟩ <;> exact .ref _ (by decide)
    | _ h => simp at h
  · refine .node _ rfl (by simp [PrimType.Known]) (fun c hc => ?_)
    cases hc with
    | list h hm =>
      cases h
      simp only [List.mem_singleton] at hm
      subst hm
      exact .ref _ (by decide)
    | tuple h => simp at h
    | _ h => simp at h
  · refine .node _ rfl (by simp) (fun c hc => ?_)
    cases hc with
    | anyOf h =>
      simp only [List.mem_cons, List.not_mem_nil, or_false] at h
      rcases h with rfl | rfl
      · refine .node _ rfl (by simp [PrimType.Known]) (fun c hc => ?_)
        cases hc with
        | _ h => simp at h
      · exact .ref _ (by decide)
    | _ h => simp at h

theorem exList_resolves : Resolves lib0.formats exListResolve exListSchema := by
  refine ⟨⟨_, fun n h => exList_reaches h⟩, exListResolve_typesKnown .root, fun n h hne => ?_, fun _ => .inl ?_,
    fun s1 _ (h : Except.error _ = _) => (nomatch h)⟩
  · have := exList_reaches h
    simp only [List.mem_cons, List.not_mem_nil, or_false] at this
    rcases this with rfl | rfl | rfl
    · exact absurd rfl hne
    · exact ⟨_, rfl, exListResolve_typesKnown (n := b! "v") (.resolved hne rfl)⟩
    · exact ⟨_, rfl, exListResolve_typesKnown (n := b! "w") (.resolved hne rfl)⟩
  · exact .child rfl (.property (.inl (by simp)) (List.mem_cons_self ..)) (.here (by decide) rfl)

/-- The linked list meets the hypotheses of `C81_conforming`. -/
example (ext : Ext) : ∃ fuel, ∀ fuel', fuel ≤ fuel' → ∀ σ, ∃ b, BuildWithCtx lib0 7 exListResolve fuel' σ exListSchema = .ok b :=
  (C81_conforming (ext := ext) (cls := anyDoc) (exListSchema_conforms _ _ _)
    (fun _ _ _ h => exListResolve_conforms _ _ _ (by decide) h) exList_resolves).2

/-! ## C80 -/

section
open Go
variable {D V P : Type} {L : CliLib D V P} {d : Disk} {o : CliOpts}

/-- If each schema can be built with enough fuel, then all can with enough fuel for all. -/
theorem buildAll_enough {resolve : Resolver} : ∀ (ss : List Schema) (i : Nat),
    (∀ s ∈ ss, ∀ m, ∃ fuel, ∀ fuel', fuel ≤ fuel' → ∀ σ, ∃ b, BuildWithCtx L.lib m resolve fuel' σ s = .ok b) →
    ∃ fuel, ∀ fuel', fuel ≤ fuel' → ∀ σ, ∃ vals, L.buildAll o resolve fuel' σ i ss = .ok vals
  | [], i, _ => ⟨0, fun _ _ _ => ⟨[], rfl⟩⟩
  | s :: ss, i, h => by
    obtain ⟨N1, h1⟩ := h s (by simp) i
    obtain ⟨N2, h2⟩ := buildAll_enough ss (i + 1) (fun s' hs' => h s' (by simp [hs']))
    refine ⟨max N1 N2, fun fuel' hf σ => ?_⟩
    obtain ⟨b, hb⟩ := h1 fuel' (by omega) (σ.sub i)
    obtain ⟨vs, hvs⟩ := h2 fuel' (by omega) σ
    rw [CliLib.buildAll]
    simp only [hb, hvs]
    exact ⟨_, rfl⟩

/-- C80: the command, from the options to the running code. If the schemas that the user asks for are in the fragment that
builder and generator carry over, their references lead somewhere, are finitely many and cannot go on forever at one place, and the
output can be written, then (given enough fuel) the exit status is 0, whatever the map iteration orders, and the output is a Go
program that, when run, sets up for schema number `i` a validator named after the prefix and `i` that accepts exactly the documents that are
valid for the schema. -/
theorem C80_complete {ext : Ext} {cls : DocClass} {text : GoStr} {m : D} {ss : List Schema}
    (hflags : L.flags = some o) (hread : L.readable o.schema = true) (hfile : d.files o.schema = some text)
    (hdec : L.decode text = some m) (hask : AsksFor L text m o.pointer ss)
    (hres : ∀ s ∈ ss, Resolves L.lib.formats (L.resolve m) s)
    (hone : OneRoot (L.resolve m) ss) (hfaith : ∀ s ∈ ss, Faithful ext L.lib.formats cls (L.resolve m) s)
    (hground : ∀ s ∈ ss, Grounded (L.resolve m) s) (hp : GoodPrefix o.pfx)
    (hsame : ∀ fuel σ jobs, BuiltInOrder L o m fuel σ ss jobs → ∀ j ∈ jobs, ∀ n c, firstRef n (jobs.map Job.val) = some c →
      j.same n = true → c = j.built.root)
    (hout : o.outFile ≠ [] → L.creatable o.outFile = true)
    (hlayout : ∀ t p, parseProg t = some p → ∃ u, L.format t = some u ∧ parseProg u = some p) (hroom : ∀ t, L.accept t = t) :
    ∃ fuel, ∀ fuel', fuel ≤ fuel' → ∀ σ, ∃ d' code p mem, L.run fuel' σ d = (.exit 0, d') ∧ Emitted o d d' code ∧
      parseProg code = some p ∧ p.run = some mem ∧
      ∀ i s, ss[i]? = some s → ∃ jv c', alookup (cliVar o i) mem.vars = some (.jv jv) ∧ jv.name = cliVar o i ∧ jv.root = some c' ∧
        (∃ R, Meaning ext (L.resolve m) s R) ∧ ∀ R, Meaning ext (L.resolve m) s R → ∀ v, Doc cls v → ∀ τ,
          (s.Valid ext R v ↔ Returns ext mem.env c' τ v .ok v) ∧ (¬ s.Valid ext R v ↔ ∃ e, Returns ext mem.env c' τ v (.err e) v) := by
  obtain ⟨N, hN⟩ := buildAll_enough (L := L) (o := o) (resolve := L.resolve m) ss 0 (fun s hs k =>
    (C81_conforming (m := k) (hfaith s hs).conforms (hfaith s hs).refConforms (hres s hs)).2)
  refine ⟨N, fun fuel' hf σ => ?_⟩
  obtain ⟨vals, hv⟩ := hN fuel' hf (σ.sub 0)
  obtain ⟨jobs, -, hj⟩ := buildAll_order.1 hv
  exact C80_command hflags hread hfile hdec hask hj hone hfaith hground hp (hsame _ _ _ hj) hout hlayout hroom

/-- The linked list, in a file of its own. -/
example (ext : Ext) : ∃ fuel, ∀ fuel', fuel ≤ fuel' → ∀ σ, ∃ d' code p mem,
    ({ exCli [] [] id with flags := some ⟨b! "s.json", [], [], []⟩, readSchema := fun _ => some exListSchema } : CliLib _ _ _).run
      fuel' σ exDisk = (.exit 0, d') ∧ d'.stdout = code ∧ parseProg code = some p ∧ p.run = some mem ∧
      ∃ jv c', alookup (b! "V0") mem.vars = some (.jv jv) ∧ jv.root = some c' ∧
        ∀ R, Meaning ext exListResolve exListSchema R → ∀ v, Doc anyDoc v → ∀ τ,
          (exListSchema.Valid ext R v ↔ Returns ext mem.env c' τ v .ok v) := by
  obtain ⟨N, h⟩ := C80_complete (ext := ext) (cls := anyDoc) (o := ⟨b! "s.json", [], [], []⟩) (d := exDisk)
    (L := { exCli [] [] id with flags := some ⟨b! "s.json", [], [], []⟩, readSchema := fun _ => some exListSchema })
    (text := b! "{}") (m := none) (ss := [exListSchema]) rfl rfl rfl rfl (.whole rfl)
    (fun s hs => by rw [List.mem_singleton.1 hs]; exact exList_resolves)
    ⟨fun s _ _ s1 (h : Except.error _ = _) => (nomatch h), fun s hs s' hs' _ _ => by
      rw [List.mem_singleton.1 hs, List.mem_singleton.1 hs']⟩
    (fun s hs => by rw [List.mem_singleton.1 hs]; exact exJobs_faithful ext anyDoc _ (List.mem_cons_self ..))
    (fun s hs => by rw [List.mem_singleton.1 hs]; exact exJobs_grounded _ (List.mem_cons_self ..))
    ⟨⟨by intro c t h; simp at h, by simp⟩, by intro t h; simp at h⟩
    (fun _ _ _ hj j hj' n c _ h => by
      obtain ⟨i, hi, e⟩ := List.mem_iff_getElem.1 hj'
      rw [(hj.each i j (by rw [List.getElem?_eq_getElem hi, e])).2.2.2] at h
      cases h)
    (fun h => absurd rfl h)
    (fun t p h => ⟨t, by simp [exCli, h], h⟩) (fun _ => rfl)
  refine ⟨N, fun fuel' hf σ => ?_⟩
  obtain ⟨d', code, p, mem, h1, h2, h3, h4, h5⟩ := h fuel' hf σ
  obtain ⟨jv, c', a, -, b, -, e⟩ := h5 0 exListSchema rfl
  exact ⟨d', code, p, mem, h1, by simpa [exDisk] using h2.stdout, h3, h4, jv, c', a, b, fun R hR v hv τ => (e R hR v hv τ).1⟩
end

end Jsval
