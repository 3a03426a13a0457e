import Verif.Lemmas.BuildablePlain
import Verif.Props.Cli
import Verif.Props.Server
import Verif.Props.PipelineDefaults
/-!
# The command and the server on schemas with defaults (C80, C83)
-/
namespace Jsval
open Go

section
variable {D V P : Type} {L : CliLib D V P} {d : Disk} {o : CliOpts}

/-- C80 for schemas with defaults: as `C80_complete`; the validators may fill in defaults. -/
theorem C80_defaults {ext : Ext} {cls : DocClass} {text : GoStr} {m : D} {ss : List Schema}
    (hflags : L.flags = some o) (hread : L.readable o.schema = true) (hfile : d.files o.schema = some text)
    (hdec : L.decode text = some m) (hask : AsksFor L text m o.pointer ss)
    (hres : ∀ s ∈ ss, Resolves L.lib.formats (L.resolve m) s)
    (hone : OneRoot (L.resolve m) ss) (hfaith : ∀ s ∈ ss, FaithfulD ext L.lib.formats cls (L.resolve m) s)
    (hground : ∀ s ∈ ss, Grounded (L.resolve m) s) (hp : GoodPrefix o.pfx)
    (hsame : ∀ fuel σ jobs, BuiltInOrder L o m fuel σ ss jobs → ∀ j ∈ jobs, ∀ n c, firstRef n (jobs.map Job.val) = some c →
      j.same n = true → c = j.built.root)
    (hout : o.outFile ≠ [] → L.creatable o.outFile = true)
    (hlayout : ∀ t p, parseProg t = some p → ∃ u, L.format t = some u ∧ parseProg u = some p) (hroom : ∀ t, L.accept t = t) :
    ∃ fuel, ∀ fuel', fuel ≤ fuel' → ∀ σ, ∃ d' code p mem, L.run fuel' σ d = (.exit 0, d') ∧ Emitted o d d' code ∧
      parseProg code = some p ∧ p.run = some mem ∧
      ∀ i s, ss[i]? = some s → ∃ jv c', alookup (cliVar o i) mem.vars = some (.jv jv) ∧ jv.name = cliVar o i ∧ jv.root = some c' ∧
        (∃ R, Meaning ext (L.resolve m) s R) ∧ ∀ R, Meaning ext (L.resolve m) s R → ∀ v, Doc cls v → ∀ τ,
          (s.Valid ext R v ↔ ∃ v', Returns ext mem.env c' τ v .ok v') ∧
          (¬ s.Valid ext R v ↔ ∃ e v', Returns ext mem.env c' τ v (.err e) v') := by
  obtain ⟨N, hN⟩ := buildAll_enough (L := L) (o := o) (resolve := L.resolve m) ss 0 (fun s hs k => by
    obtain ⟨N, hN⟩ := (C81_conforming (lib := L.lib) (m := k) (hfaith s hs).plain.conforms (hfaith s hs).plain.refConforms
      (resolves_plain (hres s hs))).2
    exact ⟨N, fun fuel' hf σ => built_of_plain (hN fuel' hf σ)⟩)
  refine ⟨N, fun fuel' hf σ => ?_⟩
  obtain ⟨vals, hv⟩ := hN fuel' hf (σ.sub 0)
  obtain ⟨jobs, -, hj⟩ := buildAll_order.1 hv
  refine command_of (fun s mem c' => (∃ R, Meaning ext (L.resolve m) s R) ∧ ∀ R, Meaning ext (L.resolve m) s R → ∀ v, Doc cls v → ∀ τ,
      (s.Valid ext R v ↔ ∃ v', Returns ext mem.env c' τ v .ok v') ∧ (¬ s.Valid ext R v ↔ ∃ e v', Returns ext mem.env c' τ v (.err e) v'))
    hflags hread hfile hdec hask hj hp hout hlayout hroom (fun hall hgood hss => ?_)
  have hmem : ∀ j ∈ jobs, j.schema ∈ ss := fun j hj => by rw [← hss]; exact List.mem_map_of_mem hj
  exact C75_defaults hall (by rw [hss]; exact hone) (fun j hj => hfaith _ (hmem j hj)) (fun j hj => hground _ (hmem j hj)) hgood
    (hsame _ _ _ hj) _

end

section
variable {D : Type} {L : ServerLib D} {body : GoStr}

/-- C83 for schemas with defaults: as `C83_answer`; the validator may fill in defaults. -/
theorem C83_defaults {ext : Ext} {cls : DocClass} {s : Schema} {m : D} (hread : L.readSchema body = some s)
    (hdec : L.decode body = some m) (hres : Resolves L.lib.formats (L.resolve m) s)
    (hfaith : FaithfulD ext L.lib.formats cls (L.resolve m) s) (hground : Grounded (L.resolve m) s)
    (hsame : ∀ fuel σ b, BuildWithCtx L.lib 0 (L.resolve m) fuel σ s = .ok b → ∀ n c, alookup n b.table = some c →
      L.same n = true → c = b.root)
    (hlayout : ∀ t p, parseProg t = some p → ∃ u, L.format t = some u ∧ parseProg u = some p) :
    ∃ fuel, ∀ fuel', fuel ≤ fuel' → ∀ σ, ∃ ct code p mem,
      L.generate fuel' σ body = .answered 200 ct [.json (.code code)] ∧ SaysJson ct ∧ parseProg code = some p ∧ p.run = some mem ∧
      ∃ jv c', alookup (b! "V0") mem.vars = some (.jv jv) ∧ jv.name = b! "V0" ∧ jv.root = some c' ∧
        (∃ R, Meaning ext (L.resolve m) s R) ∧ ∀ R, Meaning ext (L.resolve m) s R → ∀ v, Doc cls v → ∀ τ,
          (s.Valid ext R v ↔ ∃ v', Returns ext mem.env c' τ v .ok v') ∧
          (¬ s.Valid ext R v ↔ ∃ e v', Returns ext mem.env c' τ v (.err e) v') := by
  obtain ⟨N, hN⟩ := (C81_conforming (lib := L.lib) (m := 0) hfaith.plain.conforms hfaith.plain.refConforms (resolves_plain hres)).2
  refine ⟨N, fun fuel' hf σ => ?_⟩
  obtain ⟨b, hb⟩ := built_of_plain (hN fuel' hf (σ.sub 0))
  exact answer_of (fun mem c' => (∃ R, Meaning ext (L.resolve m) s R) ∧ ∀ R, Meaning ext (L.resolve m) s R → ∀ v, Doc cls v → ∀ τ,
      (s.Valid ext R v ↔ ∃ v', Returns ext mem.env c' τ v .ok v') ∧ (¬ s.Valid ext R v ↔ ∃ e v', Returns ext mem.env c' τ v (.err e) v'))
    hread hdec hb hres.rootSame (hsame _ _ _ hb) hlayout (fun jobs hj hall hone hgood hs => by
      obtain ⟨t, p, mem, h1, h2, h3, h4⟩ := C75_defaults (isPrint := L.isPrint) (ext := ext) (cls := cls) hall hone
        (fun j h => by rw [hj j h]; exact hfaith) (fun j h => by rw [hj j h]; exact hground) hgood hs (σ.sub 1)
      refine ⟨t, p, mem, h1, h2, h3, fun i j x hi hx => ?_⟩
      have := h4 i j x hi hx
      rwa [hj j (List.mem_of_getElem? hi)] at this)

end

/-! The nodes with colors and ports of `Props/ConformingDefaults.lean`. -/

theorem exNodes_reaches {n : GoStr} (h : Reaches exNodesResolve exNodes n) : n ∈ [b! "#", b! "c"] := by
  have mentioned : ∀ t, UsesSchema exNodesResolve exNodes exNodes t → t.Mentions n → n ∈ [b! "#", b! "c"] := by
    intro t ht hm
    obtain ⟨f, h1, h2, rfl⟩ := mentions_uses (resolve := exNodesResolve) (s := exNodes) hm
    rcases exNodes_uses (ht.trans h1) with h | h | h | h | h | h | h | h | h <;> cases h <;> first | exact absurd rfl h2 | decide
  cases h with
  | root h => exact mentioned _ (.refl _) h
  | step h1 h2 h3 => exact mentioned _ (reaches_uses h1 _ h2) h3

theorem exNodes_typesKnown {t : Schema} (h : UsesSchema exNodesResolve exNodes exNodes t) : t.TypesKnown := by
  revert h
  refine Schema.ind (P := fun t => UsesSchema exNodesResolve exNodes exNodes t → t.TypesKnown) ?_ ?_ t
  · intro h
    rcases exNodes_uses h with h | h | h | h | h | h | h | h | h <;> cases h
  · intro f ih h
    by_cases hr : f.reference = []
    · refine .node f hr ?_ (fun c hc => ih c hc (h.trans (.child hr hc (.refl _))))
      rcases exNodes_uses h with h | h | h | h | h | h | h | h | h <;> cases h <;> first | exact absurd hr (by decide) | simp [PrimType.Known]
    · exact .ref f hr

theorem exNodes_usesRoot : exNodes.UsesRef lib0.formats (b! "#") :=
  .child rfl (.property (.inl (by simp)) (List.mem_cons_of_mem _ (List.mem_cons_self ..))) (.here (by decide) rfl)

theorem exNodes_resolves : Resolves lib0.formats exNodesResolve exNodes := by
  refine ⟨⟨_, fun n h => exNodes_reaches h⟩, exNodes_typesKnown (.refl _), fun n h hne => ?_, fun _ => .inl exNodes_usesRoot,
    fun s1 _ (h : Except.error _ = _) => (nomatch h)⟩
  have := exNodes_reaches h
  simp only [List.mem_cons, List.not_mem_nil, or_false] at this
  rcases this with rfl | rfl
  · exact absurd rfl hne
  · exact ⟨exColor, rfl, exNodes_typesKnown (reaches_uses h _ (.resolved hne rfl))⟩

/-- A server asked for them: the root is registered as `#`, and the identity test says so. -/
def exNodesServer : ServerLib Unit := { exServer with readSchema := fun _ => some exNodes, resolve := fun _ => exNodesResolve }

/-- All hypotheses of `C83_defaults` hold. -/
example (ext : Ext) : ∃ fuel, ∀ fuel', fuel ≤ fuel' → ∀ σ, ∃ ct code p mem,
    exNodesServer.generate fuel' σ (b! "{}") = .answered 200 ct [.json (.code code)] ∧ parseProg code = some p ∧ p.run = some mem ∧
    ∃ jv c', alookup (b! "V0") mem.vars = some (.jv jv) ∧ jv.root = some c' ∧
      ∀ R, Meaning ext exNodesResolve exNodes R → ∀ v, Doc anyDoc v → ∀ τ,
        (exNodes.Valid ext R v ↔ ∃ v', Returns ext mem.env c' τ v .ok v') := by
  obtain ⟨N, h⟩ := C83_defaults (L := exNodesServer) (body := b! "{}") (ext := ext) (cls := anyDoc) (m := ()) rfl rfl exNodes_resolves
    (exNodes_faithful ext) exNodes_grounded
    (fun fuel σ b hb n c hc hs => by
      have hn : n = b! "#" := by simpa [exNodesServer, exServer] using hs
      subst hn
      rw [root_registered hb exNodes_usesRoot] at hc
      cases hc
      rfl)
    (fun t p h => ⟨t, by simp [exNodesServer, exServer, h], h⟩)
  refine ⟨N, fun fuel' hf σ => ?_⟩
  obtain ⟨ct, code, p, mem, h1, -, h2, h3, jv, c', a, -, b, -, e⟩ := h fuel' hf σ
  exact ⟨ct, code, p, mem, h1, h2, h3, jv, c', a, b, fun R hR v hv τ => (e R hR v hv τ).1⟩

/-- All hypotheses of `C80_defaults` hold for the schema in a file of its own. -/
example (ext : Ext) : ∃ fuel, ∀ fuel', fuel ≤ fuel' → ∀ σ, ∃ d' code p mem,
    ({ exCli [] [] id with flags := some ⟨b! "s.json", [], [], []⟩, readSchema := fun _ => some exNodes, resolve := fun _ => exNodesResolve } :
      CliLib _ _ _).run fuel' σ exDisk = (.exit 0, d') ∧ d'.stdout = code ∧ parseProg code = some p ∧ p.run = some mem ∧
      ∃ jv c', alookup (b! "V0") mem.vars = some (.jv jv) ∧ jv.root = some c' ∧
        ∀ R, Meaning ext exNodesResolve exNodes R → ∀ v, Doc anyDoc v → ∀ τ,
          (exNodes.Valid ext R v ↔ ∃ v', Returns ext mem.env c' τ v .ok v') := by
  obtain ⟨N, h⟩ := C80_defaults (ext := ext) (cls := anyDoc) (o := ⟨b! "s.json", [], [], []⟩) (d := exDisk)
    (L := { exCli [] [] id with flags := some ⟨b! "s.json", [], [], []⟩, readSchema := fun _ => some exNodes, resolve := fun _ => exNodesResolve })
    (text := b! "{}") (m := none) (ss := [exNodes]) rfl rfl rfl rfl (.whole rfl)
    (fun s hs => by rw [List.mem_singleton.1 hs]; exact exNodes_resolves)
    ⟨fun s _ _ s1 (h : Except.error _ = _) => (nomatch h), fun s hs s' hs' _ _ => by
      rw [List.mem_singleton.1 hs, List.mem_singleton.1 hs']⟩
    (fun s hs => by rw [List.mem_singleton.1 hs]; exact exNodes_faithful ext)
    (fun s hs => by rw [List.mem_singleton.1 hs]; exact exNodes_grounded)
    ⟨⟨by intro c t h; simp at h, by simp⟩, by intro t h; simp at h⟩
    (fun _ _ _ hj j hj' n c _ h => by
      obtain ⟨i, hi, e⟩ := List.mem_iff_getElem.1 hj'
      rw [(hj.each i j (by rw [List.getElem?_eq_getElem hi, e])).2.2.2] at h
      cases h)
    (fun h => absurd rfl h)
    (fun t p h => ⟨t, by simp [exCli, h], h⟩) (fun _ => rfl)
  refine ⟨N, fun fuel' hf σ => ?_⟩
  obtain ⟨d', code, p, mem, h1, h2, h3, h4, h5⟩ := h fuel' hf σ
  obtain ⟨jv, c', a, -, b, -, e⟩ := h5 0 exNodes rfl
  exact ⟨d', code, p, mem, h1, by simpa [exDisk] using h2.stdout, h3, h4, jv, c', a, b, fun R hR v hv τ => (e R hR v hv τ).1⟩

end Jsval
