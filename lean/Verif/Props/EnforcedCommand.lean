import Verif.Props.Enforced
import Verif.Props.CommandDefaults
/-!
# What the code written by the command and the server enforces (C114)
-/
namespace Jsval
open Go

/-- The schema and all that it refers to ask no less than what is kept of them. -/
def LoosensAll (resolve : Resolver) (s : Schema) : Prop :=
  s.Loosens ∧ ∀ n s1, Reaches resolve s n → RefersTo resolve s n s1 → s1.Loosens

theorem Resolves.refers {formats : List GoStr} {resolve : Resolver} {s : Schema} (h : Resolves formats resolve s) {n : GoStr}
    (hn : Reaches resolve s n) : ∃ s1, RefersTo resolve s n s1 := by
  by_cases e : n = b! "#"
  · exact ⟨s, e ▸ .root⟩
  · obtain ⟨s1, h1, -⟩ := h.resolved n hn e
    exact ⟨s1, .resolved e h1⟩

/-- What a validator does with documents, given a schema: it accepts exactly those valid for what is kept of the schema, in
particular all that are valid for the schema itself, if nothing is narrowed. -/
def Enforces (ext : Ext) (cls : DocClass) (resolve : Resolver) (s : Schema) (env : Env) (c : Constraint) : Prop :=
  (∃ R, Meaning ext resolve.keep s.keep R) ∧
  (∀ R, Meaning ext resolve.keep s.keep R → ∀ v, Doc cls v → ∀ τ,
    (s.keep.Valid ext R v ↔ Returns ext env c τ v .ok v) ∧ (¬ s.keep.Valid ext R v ↔ ∃ e, Returns ext env c τ v (.err e) v)) ∧
  (LoosensAll resolve s → ∀ R, Meaning ext resolve s R → ∀ v, Doc cls v → s.Valid ext R v → ∀ τ, Returns ext env c τ v .ok v)

theorem enforces_of {ext : Ext} {cls : DocClass} {resolve : Resolver} {s : Schema} {env : Env} {c : Constraint} {formats : List GoStr}
    (hf : CodeFor ext formats cls resolve s) (hg : Grounded resolve s) (hr : Resolves formats resolve s)
    (h : (∃ R, Meaning ext resolve.keep s.keep R) ∧ ∀ R, Meaning ext resolve.keep s.keep R → ∀ v, Doc cls v → ∀ τ,
      (s.keep.Valid ext R v ↔ Returns ext env c τ v .ok v) ∧ (¬ s.keep.Valid ext R v ↔ ∃ e, Returns ext env c τ v (.err e) v)) :
    Enforces ext cls resolve s env c := by
  obtain ⟨⟨R', hR'⟩, h2⟩ := h
  exact ⟨⟨R', hR'⟩, h2, fun hl R hR v hv hval τ => (h2 R' hR' v hv τ).1.1
    (C114_weaker hf hg (fun n hn => hr.refers hn) hl.1 hl.2 hR hR' hval)⟩

section
variable {D V P : Type} {L : CliLib D V P} {o : CliOpts} {d : Disk}

/-- C114 for the command: as `C80_complete`, for all conforming schemas for which code is generated. -/
theorem C114_command {ext : Ext} {cls : DocClass} {text : GoStr} {m : D} {ss : List Schema}
    (hflags : L.flags = some o) (hread : L.readable o.schema = true) (hfile : d.files o.schema = some text)
    (hdec : L.decode text = some m) (hask : AsksFor L text m o.pointer ss)
    (hres : ∀ s ∈ ss, Resolves L.lib.formats (L.resolve m) s)
    (hone : OneRoot (L.resolve m) ss) (hfaith : ∀ s ∈ ss, CodeFor ext L.lib.formats cls (L.resolve m) s)
    (hground : ∀ s ∈ ss, Grounded (L.resolve m) s) (hp : GoodPrefix o.pfx)
    (hsame : ∀ fuel σ jobs, BuiltInOrder L o m fuel σ ss jobs → ∀ j ∈ jobs, ∀ n c, firstRef n (jobs.map Job.val) = some c →
      j.same n = true → c = j.built.root)
    (hout : o.outFile ≠ [] → L.creatable o.outFile = true)
    (hlayout : ∀ t p, parseProg t = some p → ∃ u, L.format t = some u ∧ parseProg u = some p) (hroom : ∀ t, L.accept t = t) :
    ∃ fuel, ∀ fuel', fuel ≤ fuel' → ∀ σ, ∃ d' code p mem, L.run fuel' σ d = (.exit 0, d') ∧ Emitted o d d' code ∧
      parseProg code = some p ∧ p.run = some mem ∧
      ∀ i s, ss[i]? = some s → ∃ jv c', alookup (cliVar o i) mem.vars = some (.jv jv) ∧ jv.name = cliVar o i ∧ jv.root = some c' ∧
        Enforces ext cls (L.resolve m) s mem.env c' := by
  obtain ⟨N, hN⟩ := buildAll_enough (L := L) (o := o) (resolve := L.resolve m) ss 0 (fun s hs k =>
    (C81_conforming (m := k) (hfaith s hs).conforms (hfaith s hs).refConforms (hres s hs)).2)
  refine ⟨N, fun fuel' hf σ => ?_⟩
  obtain ⟨vals, hv⟩ := hN fuel' hf (σ.sub 0)
  obtain ⟨jobs, -, hj⟩ := buildAll_order.1 hv
  refine command_of (fun s mem c' => Enforces ext cls (L.resolve m) s mem.env c') hflags hread hfile hdec hask hj hp hout hlayout hroom
    (fun hall hgood hss => ?_)
  have hmem : ∀ j ∈ jobs, j.schema ∈ ss := fun j hj => by rw [← hss]; exact List.mem_map_of_mem hj
  obtain ⟨t, p, mem, h1, h2, h3, h⟩ := C114_enforced (isPrint := L.isPrint) hall (by rw [hss]; exact hone)
    (fun j hj => hfaith _ (hmem j hj)) (fun j hj => hground _ (hmem j hj)) hgood (hsame _ _ _ hj) (σ.sub 1)
  refine ⟨t, p, mem, h1, h2, h3, fun i j x hi hx => ?_⟩
  obtain ⟨jv, c', a1, a2, a3, a4⟩ := h i j x hi hx
  have hjm := hmem j (List.mem_of_getElem? hi)
  exact ⟨jv, c', a1, a2, a3, enforces_of (hfaith _ hjm) (hground _ hjm) (hres _ hjm) a4⟩

end

section
variable {D : Type} {L : ServerLib D} {body : GoStr}

/-- C114 for the server: as `C83_answer`, for all conforming schemas for which code is generated. -/
theorem C114_server {ext : Ext} {cls : DocClass} {s : Schema} {m : D} (hread : L.readSchema body = some s)
    (hdec : L.decode body = some m) (hres : Resolves L.lib.formats (L.resolve m) s)
    (hfaith : CodeFor ext L.lib.formats cls (L.resolve m) s) (hground : Grounded (L.resolve m) s)
    (hsame : ∀ fuel σ b, BuildWithCtx L.lib 0 (L.resolve m) fuel σ s = .ok b → ∀ n c, alookup n b.table = some c →
      L.same n = true → c = b.root)
    (hlayout : ∀ t p, parseProg t = some p → ∃ u, L.format t = some u ∧ parseProg u = some p) :
    ∃ fuel, ∀ fuel', fuel ≤ fuel' → ∀ σ, ∃ ct code p mem,
      L.generate fuel' σ body = .answered 200 ct [.json (.code code)] ∧ SaysJson ct ∧ parseProg code = some p ∧ p.run = some mem ∧
      ∃ jv c', alookup (b! "V0") mem.vars = some (.jv jv) ∧ jv.name = b! "V0" ∧ jv.root = some c' ∧
        Enforces ext cls (L.resolve m) s mem.env c' := by
  obtain ⟨N, hN⟩ := (C81_conforming (m := 0) hfaith.conforms hfaith.refConforms hres).2
  refine ⟨N, fun fuel' hf σ => ?_⟩
  obtain ⟨b, hb⟩ := hN fuel' hf (σ.sub 0)
  exact answer_of (fun mem c' => Enforces ext cls (L.resolve m) s mem.env c')
    hread hdec hb hres.rootSame (hsame _ _ _ hb) hlayout (fun jobs hj hall hone hgood hs => by
      obtain ⟨t, p, mem, h1, h2, h3, h4⟩ := C114_enforced (isPrint := L.isPrint) (ext := ext) (cls := cls) hall hone
        (fun j h => by rw [hj j h]; exact hfaith) (fun j h => by rw [hj j h]; exact hground) hgood hs (σ.sub 1)
      refine ⟨t, p, mem, h1, h2, h3, fun i j x hi hx => ?_⟩
      obtain ⟨jv, c', a1, a2, a3, a4⟩ := h4 i j x hi hx
      rw [hj j (List.mem_of_getElem? hi)] at a4
      exact ⟨jv, c', a1, a2, a3, enforces_of hfaith hground hres a4⟩)

end

/-! The order with items of `Props/Enforced.lean`. -/

theorem exOrder_typesKnown : (Schema.mk exOrder).TypesKnown ∧ (Schema.mk exCount).TypesKnown := by
  refine ⟨.node _ rfl (by simp [exOrder, PrimType.Known]) fun c hc => ?_, .node _ rfl (by simp [exCount, PrimType.Known]) fun c hc => (exCount_childless hc).elim⟩
  rcases exOrder_child hc with rfl | rfl | rfl
  · exact .ref _ (by decide)
  · exact .node _ rfl (by simp [PrimType.Known]) fun c hc => by cases hc with | _ h => simp at h
  · refine .node _ rfl (by simp [PrimType.Known]) fun c hc => ?_
    cases hc with
    | property h =>
      simp only [List.mem_cons, Prod.mk.injEq, List.not_mem_nil, or_false] at h
      rcases h with ⟨-, rfl⟩
      exact .node _ rfl (by simp) fun c hc => by cases hc with | _ h => simp at h
    | _ h => simp at h

theorem exOrder_resolvable : Resolves lib0.formats exOrderResolve (.mk exOrder) := by
  refine ⟨⟨[b! "c"], fun n h => by simp [exOrder_reaches h]⟩, exOrder_typesKnown.1, fun n h hne => ?_,
    fun h => absurd (exOrder_reaches h) (by decide), fun s1 h => absurd (exOrder_reaches h) (by decide)⟩
  obtain rfl := exOrder_reaches h
  exact ⟨.mk exCount, rfl, exOrder_typesKnown.2⟩

theorem exOrder_loosensAll : LoosensAll exOrderResolve (.mk exOrder) :=
  ⟨exOrder_loosens, fun n s1 _ h => by rcases exOrder_refersTo h with ⟨-, rfl⟩ | ⟨-, rfl⟩; exacts [exOrder_loosens, exCount_loosens]⟩

/-- A server asked for them. -/
def exOrderServer : ServerLib Unit := { exServer with readSchema := fun _ => some (.mk exOrder), resolve := fun _ => exOrderResolve, same := fun _ => false }

/-- All hypotheses of `C114_server` hold; the code accepts what is valid and `{"ratio": 1}`. -/
example (ext : Ext) : ∃ fuel, ∀ fuel', fuel ≤ fuel' → ∀ σ, ∃ ct code p mem,
    exOrderServer.generate fuel' σ (b! "{}") = .answered 200 ct [.json (.code code)] ∧ parseProg code = some p ∧ p.run = some mem ∧
    ∃ jv c', alookup (b! "V0") mem.vars = some (.jv jv) ∧ jv.root = some c' ∧ (∀ τ, Returns ext mem.env c' τ exRatio .ok exRatio) ∧
      ∀ R, Meaning ext exOrderResolve (.mk exOrder) R → ∀ v, Doc anyDoc v → (Schema.mk exOrder).Valid ext R v → ∀ τ, Returns ext mem.env c' τ v .ok v := by
  obtain ⟨N, h⟩ := C114_server (L := exOrderServer) (body := b! "{}") (ext := ext) (cls := anyDoc) (m := ()) rfl rfl exOrder_resolvable
    (exOrders_kept ext anyDoc _ (List.mem_cons_self ..)) (exOrders_grounded _ (List.mem_cons_self ..))
    (fun fuel σ b hb n c hc hs => by cases hs) (fun t p h => ⟨t, by simp [exOrderServer, exServer, h], h⟩)
  refine ⟨N, fun fuel' hf σ => ?_⟩
  obtain ⟨ct, code, p, mem, h1, -, h2, h3, jv, c', a, -, b, ⟨R', hR'⟩, e, e'⟩ := h fuel' hf σ
  exact ⟨ct, code, p, mem, h1, h2, h3, jv, c', a, b, fun τ => (e R' hR' _ exRatio_doc τ).1.1 (exRatio_kept ext R'), e' exOrder_loosensAll⟩

/-- All hypotheses of `C114_command` hold for the schema in a file of its own. -/
example (ext : Ext) : ∃ fuel, ∀ fuel', fuel ≤ fuel' → ∀ σ, ∃ d' code p mem,
    ({ exCli [] [] id with flags := some ⟨b! "s.json", [], [], []⟩, readSchema := fun _ => some (.mk exOrder), resolve := fun _ => exOrderResolve } :
      CliLib _ _ _).run fuel' σ exDisk = (.exit 0, d') ∧ d'.stdout = code ∧ parseProg code = some p ∧ p.run = some mem ∧
      ∃ jv c', alookup (b! "V0") mem.vars = some (.jv jv) ∧ jv.root = some c' ∧ Enforces ext anyDoc exOrderResolve (.mk exOrder) mem.env c' := by
  obtain ⟨N, h⟩ := C114_command (ext := ext) (cls := anyDoc) (o := ⟨b! "s.json", [], [], []⟩) (d := exDisk)
    (L := { exCli [] [] id with flags := some ⟨b! "s.json", [], [], []⟩, readSchema := fun _ => some (.mk exOrder), resolve := fun _ => exOrderResolve })
    (text := b! "{}") (m := none) (ss := [.mk exOrder]) rfl rfl rfl rfl (.whole rfl)
    (fun s hs => by rw [List.mem_singleton.1 hs]; exact exOrder_resolvable) exOrders_oneRoot
    (fun s hs => by rw [List.mem_singleton.1 hs]; exact exOrders_kept ext anyDoc _ (List.mem_cons_self ..))
    (fun s hs => by rw [List.mem_singleton.1 hs]; exact exOrders_grounded _ (List.mem_cons_self ..))
    ⟨⟨by intro c t h; simp at h, by simp⟩, by intro t h; simp at h⟩
    (fun _ _ _ hj j hj' n c _ h => by
      obtain ⟨i, hi, e⟩ := List.mem_iff_getElem.1 hj'
      rw [(hj.each i j (by rw [List.getElem?_eq_getElem hi, e])).2.2.2] at h
      cases h)
    (fun h => absurd rfl h)
    (fun t p h => ⟨t, by simp [exCli, h], h⟩) (fun _ => rfl)
  refine ⟨N, fun fuel' hf σ => ?_⟩
  obtain ⟨d', code, p, mem, h1, h2, h3, h4, h5⟩ := h fuel' hf σ
  obtain ⟨jv, c', a, -, b, e⟩ := h5 0 _ rfl
  exact ⟨d', code, p, mem, h1, by simpa [exDisk] using h2.stdout, h3, h4, jv, c', a, b, e⟩

end Jsval
