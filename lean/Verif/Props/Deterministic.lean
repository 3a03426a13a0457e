import Verif.Lemmas.BuildTable
import Verif.Props.Gentest
import Verif.Model.Server
/-!
# Building and generating do not depend on the order of maps

Go visits the entries of a map in an order that differs from run to run. The builder does so with properties, patterns, dependencies and
recorded references, the generator with the merged constraint maps and the patterns.
-/
namespace Jsval
variable {lib : SchemaLib} {m : Nat} {resolve : Resolver}

/-! ## The parts -/

/-- C108: what is registered in a built validator: the references that must be resolved, and `#` if it is referred to. -/
theorem C108_table {s : Schema} {fuel : Nat} {σ : Sched} {b : Built} (h : BuildWithCtx lib m resolve fuel σ s = .ok b) (n : GoStr) :
    (∃ c, alookup n b.table = some c) ↔ MustResolve lib.formats resolve s n ∨ (n = b! "#" ∧ s.UsesRef lib.formats n) := by
  rw [alookup_isSome, (builtParts h).keys n]
  exact or_congr_right ⟨fun ⟨h1, h2⟩ => ⟨h1, by rw [h1]; exact h2⟩, fun ⟨h1, h2⟩ => ⟨h1, by rw [h1] at h2; exact h2⟩⟩

/-- C108: a schema that can be built with one order of the maps can be built with all, given enough fuel. -/
theorem C108_any_order {s : Schema} {fuel : Nat} {σ : Sched} {b : Built} (h : BuildWithCtx lib m resolve fuel σ s = .ok b) :
    ∃ N, ∀ fuel', N ≤ fuel' → ∀ σ', ∃ b', BuildWithCtx lib m resolve fuel' σ' s = .ok b' :=
  built_any_order h

/-- C108: whatever the orders in builder and generator, the text for a schema is the same. -/
theorem C108_text {s : Schema} (hk : KeyedAll lib.formats resolve s) {fuel fuel' : Nat} {σ σ' : Sched} {b b' : Built}
    (h : BuildWithCtx lib m resolve fuel σ s = .ok b) (h' : BuildWithCtx lib m resolve fuel' σ' s = .ok b')
    {same : GoStr → Bool} (hs : OneName same) (isPrint : Nat → Bool) (name : GoStr) (τ τ' : Sched) :
    process isPrint [⟨name, b.table, some b.root, same⟩] τ = process isPrint [⟨name, b'.table, some b'.root, same⟩] τ' := by
  refine process_same (.cons (built_sameVal hk h h' name same) .nil) (fun v hv n n' hn hn' _ _ => ?_) τ τ'
  rw [List.mem_singleton] at hv
  subst hv
  exact hs n n' hn hn'

/-- A failure that is not for want of fuel is a failure for all orders. -/
theorem fails_any_order {s : Schema} {fuel fuel' : Nat} {σ σ' : Sched} {b : Built} {e : CompileStop}
    (h : BuildWithCtx lib m resolve fuel σ s = .ok b) (h' : BuildWithCtx lib m resolve fuel' σ' s = .error e) : e = .diverge := by
  by_contra hne
  obtain ⟨b', hb'⟩ := built_of_canBuild (canBuild_of_built h) fuel' σ' (by rw [h']; simpa using hne)
  rw [h'] at hb'
  cases hb'

/-! ## The command -/

section
variable {D V P : Type} {L : CliLib D V P}

theorem buildAll_cons_ok {o : CliOpts} {fuel : Nat} {σ : Sched} {s : Schema} {ss : List Schema} {i : Nat} {vals : List GenVal}
    (h : L.buildAll o resolve fuel σ i (s :: ss) = .ok vals) :
    ∃ b vs, BuildWithCtx L.lib i resolve fuel (σ.sub i) s = .ok b ∧ L.buildAll o resolve fuel σ (i + 1) ss = .ok vs ∧
      vals = ⟨cliName o i, b.table, some b.root, L.same i⟩ :: vs := by
  rw [CliLib.buildAll] at h
  rcases e : BuildWithCtx L.lib i resolve fuel (σ.sub i) s with e | b
  · rw [e] at h; cases h
  · rw [e] at h
    simp only at h
    rcases e2 : L.buildAll o resolve fuel σ (i + 1) ss with e | vs
    · rw [e2] at h; cases h
    · rw [e2] at h
      cases h
      exact ⟨b, vs, rfl, rfl, rfl⟩

theorem buildAll_same {o : CliOpts} {fuel fuel' : Nat} {σ σ' : Sched} : ∀ {ss : List Schema} {i : Nat},
    (∀ s ∈ ss, KeyedAll L.lib.formats resolve s) → ∀ {vals vals' : List GenVal},
    L.buildAll o resolve fuel σ i ss = .ok vals → L.buildAll o resolve fuel' σ' i ss = .ok vals' → List.Forall₂ SameVal vals vals'
  | [], _, _, _, _, h, h' => by cases h; cases h'; exact .nil
  | s :: ss, i, hk, vals, vals', h, h' => by
    obtain ⟨b, vs, hb, hvs, rfl⟩ := buildAll_cons_ok h
    obtain ⟨b', vs', hb', hvs', rfl⟩ := buildAll_cons_ok h'
    exact .cons (built_sameVal (hk s (by simp)) hb hb' _ _) (buildAll_same (fun s h => hk s (by simp [h])) hvs hvs')

theorem buildAll_fails {o : CliOpts} {fuel fuel' : Nat} {σ σ' : Sched} : ∀ {ss : List Schema} {i : Nat} {vals : List GenVal} {e : CompileStop},
    L.buildAll o resolve fuel σ i ss = .ok vals → L.buildAll o resolve fuel' σ' i ss = .error e → e = .diverge
  | [], _, _, _, h, h' => by cases h'
  | s :: ss, i, vals, e, h, h' => by
    obtain ⟨b, vs, hb, hvs, rfl⟩ := buildAll_cons_ok h
    rw [CliLib.buildAll] at h'
    split at h'
    · next e' he' =>
      cases h'
      exact fails_any_order hb he'
    split at h'
    · next e' he' =>
      cases h'
      exact buildAll_fails hvs he'
    cases h'

theorem buildAll_any_order {o : CliOpts} {fuel : Nat} {σ : Sched} : ∀ {ss : List Schema} {i : Nat} {vals : List GenVal},
    L.buildAll o resolve fuel σ i ss = .ok vals → ∃ N, ∀ fuel', N ≤ fuel' → ∀ σ', ∃ vals', L.buildAll o resolve fuel' σ' i ss = .ok vals'
  | [], _, _, h => ⟨0, fun _ _ _ => ⟨[], rfl⟩⟩
  | s :: ss, i, vals, h => by
    obtain ⟨b, vs, hb, hvs, rfl⟩ := buildAll_cons_ok h
    obtain ⟨N1, h1⟩ := built_any_order hb
    obtain ⟨N2, h2⟩ := buildAll_any_order hvs
    refine ⟨max N1 N2, fun fuel' hf σ' => ?_⟩
    obtain ⟨b', hb'⟩ := h1 fuel' (le_trans (le_max_left _ _) hf) (σ'.sub i)
    obtain ⟨vs, hvs'⟩ := h2 fuel' (le_trans (le_max_right _ _) hf) σ'
    simp only [CliLib.buildAll, hb', hvs']
    exact ⟨_, rfl⟩

theorem buildAll_of {o : CliOpts} {fuel : Nat} {σ : Sched} : ∀ {ss : List Schema} {i : Nat} {vals : List GenVal},
    L.buildAll o resolve fuel σ i ss = .ok vals → ∀ v ∈ vals, ∃ j, v.same = L.same j
  | [], _, _, h => by cases h; simp
  | s :: ss, i, vals, h => by
    obtain ⟨b, vs, hb, hvs, rfl⟩ := buildAll_cons_ok h
    intro v hv
    rcases List.mem_cons.1 hv with rfl | hv
    · exact ⟨i, rfl⟩
    · exact buildAll_of hvs v hv

/-- The schemas that the user asks for have proper maps. -/
def CliLib.Proper (L : CliLib D V P) (d : Disk) : Prop :=
  ∀ o text doc ss, L.flags = some o → d.files o.schema = some text → L.decode text = some doc → AsksFor L text doc o.pointer ss →
    ∀ s ∈ ss, KeyedAll L.lib.formats (L.resolve doc) s

variable {fuel fuel' : Nat} {σ σ' : Sched} {d d' : Disk}

theorem emit_same {o : CliOpts} {vals vals' : List GenVal} (h : List.Forall₂ SameVal vals vals')
    (hs : ∀ v ∈ vals, OneName v.same) : L.emit d o vals σ = L.emit d o vals' σ' := by
  unfold CliLib.emit
  rw [process_same h (fun v hv n n' hn hn' _ _ => hs v hv n n' hn hn') σ σ']

/-- C108: two runs of the command that end leave the same files and the same output. They end in the same way, unless there is no
validator: then the status is 1 or 2. -/
theorem C108_command_ends (hp : L.Proper d) (hs : ∀ i, OneName (L.same i))
    (h : (L.run fuel σ d).1 ≠ .diverge) (h' : (L.run fuel' σ' d).1 ≠ .diverge) :
    L.run fuel σ d = L.run fuel' σ' d ∨ ((L.run fuel σ d).2 = d ∧ (L.run fuel' σ' d).2 = d ∧
      ((L.run fuel σ d).1 = .exit 1 ∨ (L.run fuel σ d).1 = .exit 2) ∧ ((L.run fuel' σ' d).1 = .exit 1 ∨ (L.run fuel' σ' d).1 = .exit 2)) := by
  have hstop : ∀ e : CompileStop, e.cliEnd ≠ .diverge → e.cliEnd = .exit 1 ∨ e.cliEnd = .exit 2 := fun e he => by
    cases e with
    | stop e => cases e <;> simp [CompileStop.cliEnd]
    | diverge => exact absurd rfl he
  have hdiv : ∀ e : CompileStop, e.cliEnd ≠ .diverge → e ≠ .diverge := fun e he h => he (by rw [h]; rfl)
  unfold CliLib.run at h h' ⊢
  rcases ef : L.flags with _ | o
  · exact .inl rfl
  simp only [ef] at h h' ⊢
  rcases el : L.load d o with _ | ⟨doc, ss⟩
  · exact .inl rfl
  simp only [el] at h h' ⊢
  obtain ⟨text, hr, ht, hm, ha⟩ := load_iff.1 el
  have hk := hp o text doc ss ef ht hm ha
  rcases e1 : L.buildAll o (L.resolve doc) fuel (σ.sub 0) 0 ss with e | vals
  · rcases e2 : L.buildAll o (L.resolve doc) fuel' (σ'.sub 0) 0 ss with e' | vals'
    · simp only [e1, e2] at h h' ⊢
      exact .inr ⟨trivial, trivial, hstop e h, hstop e' h'⟩
    · simp only [e1] at h
      exact absurd (buildAll_fails e2 e1) (hdiv e h)
  · rcases e2 : L.buildAll o (L.resolve doc) fuel' (σ'.sub 0) 0 ss with e' | vals'
    · simp only [e2] at h'
      exact absurd (buildAll_fails e1 e2) (hdiv e' h')
    · have hsame := buildAll_same hk e1 e2
      have hone : ∀ v ∈ vals, OneName v.same := fun v hv => by
        obtain ⟨j, hj⟩ := buildAll_of e1 v hv
        rw [hj]
        exact hs j
      refine .inl ?_
      simp only
      rw [emit_same hsame hone, emit_same hsame hone]

/-- C108: if a run of the command succeeds, all do, given enough fuel, and leave the same. -/
theorem C108_command (hp : L.Proper d) (hs : ∀ i, OneName (L.same i)) (h : L.run fuel σ d = (.exit 0, d')) :
    ∃ N, ∀ fuel', N ≤ fuel' → ∀ σ', L.run fuel' σ' d = (.exit 0, d') := by
  obtain ⟨o, jobs, code, hsucc⟩ := C78_status.1 ⟨d', h⟩
  obtain ⟨text, doc, ss, hr, ht, hm, ha, hb⟩ := hsucc.built
  obtain ⟨N, hN⟩ := buildAll_any_order (buildAll_order.2 ⟨jobs, rfl, hb⟩)
  refine ⟨N, fun fuel' hf σ' => ?_⟩
  have hne : (L.run fuel' σ' d).1 ≠ .diverge := by
    obtain ⟨vals, hv⟩ := hN fuel' hf (σ'.sub 0)
    have hl : L.load d o = some (doc, ss) := load_iff.2 ⟨text, hr, ht, hm, ha⟩
    have he : ∀ d0, (L.emit d0 o vals (σ'.sub 1)).1 ≠ .diverge := fun d0 => by
      unfold CliLib.emit
      split
      · next e _ => cases e <;> simp [GenStop.cliEnd]
      · split <;> simp
    simp only [CliLib.run, hsucc.flags, hl, hv]
    split
    · split
      · exact he _
      · simp
    · exact he d
  rcases C108_command_ends hp hs (fuel := fuel) (σ := σ) (by rw [h]; simp) hne with h1 | ⟨-, -, h1 | h1, -⟩
  · rw [← h1, h]
  · rw [h] at h1; simp at h1
  · rw [h] at h1; simp at h1
end

/-! ## gentest -/

section
variable {L : GentestLib} {fuel : Nat} {σ : Sched} {d d' : Disk}

/-- C108: if a run of gentest succeeds, all do, given enough fuel, and write the same file. -/
theorem C108_gentest (hp : ∀ src text s, L.args[1]? = some src → d.files src = some text → L.readSchema text = some s →
      KeyedAll L.lib.formats (L.resolve s) s) (hs : OneName L.same) (h : L.run fuel σ d = (.exit 0, d')) :
    ∃ N, ∀ fuel', N ≤ fuel' → ∀ σ', L.run fuel' σ' d = (.exit 0, d') := by
  obtain ⟨src, code, h1, ⟨text, s, b, t, hr, h2, h3, h4, h5, h6⟩, h7⟩ := run_zero.1 h
  have hne : s ≠ .nil := fun hn => by
    subst hn
    cases h4
  rw [build_eq_withCtx hne] at h4
  obtain ⟨N, hN⟩ := built_any_order h4
  refine ⟨N, fun fuel' hf σ' => run_zero.2 ⟨src, code, h1, ?_, h7⟩⟩
  obtain ⟨b', hb'⟩ := hN fuel' hf (σ'.sub 0)
  refine ⟨text, s, b', t, hr, h2, h3, by rw [build_eq_withCtx hne, hb'], ?_, h6⟩
  rw [← h5]
  exact C108_text (hp src text s h1 h2 h3) hb' h4 hs _ _ _ _
end

/-! ## The server -/

section
variable {D : Type} {L : ServerLib D} {fuel : Nat} {σ : Sched}

/-- C108: if the server answers a request for code with code, it always does, given enough fuel, and with the same. -/
theorem C108_server {body code : GoStr} {ctype : Option GoStr} {status : Nat}
    (hp : ∀ s doc, L.readSchema body = some s → L.decode body = some doc → KeyedAll L.lib.formats (L.resolve doc) s) (hs : OneName L.same)
    (h : L.generate fuel σ body = .answered status ctype [.json (.code code)]) :
    ∃ N, ∀ fuel', N ≤ fuel' → ∀ σ', L.generate fuel' σ' body = .answered status ctype [.json (.code code)] := by
  unfold ServerLib.generate at h ⊢
  rcases e1 : L.readSchema body with _ | s
  · exact ⟨0, fun _ _ _ => by simpa only [e1] using h⟩
  simp only [e1] at h ⊢
  rcases e2 : L.decode body with _ | doc
  · exact ⟨0, fun _ _ _ => by simpa only [e2] using h⟩
  simp only [e2] at h ⊢
  rcases e3 : BuildWithCtx L.lib 0 (L.resolve doc) fuel (σ.sub 0) s with e | b
  · rw [e3] at h
    rcases e with (e | _) | _ <;> simp [failWith, Writer.write, Writer.done] at h
  · obtain ⟨N, hN⟩ := built_any_order e3
    refine ⟨N, fun fuel' hf σ' => ?_⟩
    obtain ⟨b', hb'⟩ := hN fuel' hf (σ'.sub 0)
    rw [e3] at h
    rw [hb']
    simp only [ServerLib.val] at h ⊢
    rw [C108_text (hp s doc e1 e2) hb' e3 hs L.isPrint [] (σ'.sub 1) (σ.sub 1)]
    exact h
end

/-! ## Examples -/

theorem exList_targets {n : GoStr} {s1 : Schema} (h : (exListResolve n).target = .ok s1) : s1.Keyed := by
  unfold exListResolve at h
  split_ifs at h
  · cases h
    exact Schema.keyed_of_check _ (by decide)
  · cases h
    exact Schema.keyed_of_check _ (by decide)
  · cases h

theorem exList_keyed : KeyedAll lib0.formats exListResolve exListSchema :=
  ⟨Schema.keyed_of_check _ (by decide), fun _ _ _ h => exList_targets h⟩

theorem exBag_keyed : KeyedAll lib0.formats exListResolve exBagSchema :=
  ⟨Schema.keyed_of_check _ (by decide), fun _ _ _ h => exList_targets h⟩

/-- The linked list: three names are registered. -/
example {fuel : Nat} {σ : Sched} {b : Built} (h : BuildWithCtx lib0 7 exListResolve fuel σ exListSchema = .ok b) :
    ∃ c, alookup (b! "w") b.table = some c :=
  (C108_table h _).2 (.inl (.step (n := b! "v")
    (.root (.child rfl (.property (.inl (by simp)) (List.mem_cons_of_mem _ (List.mem_cons_self ..))) (.here (by decide) rfl)) (by decide)) rfl
    (.child rfl (.items (.inl (by simp)) rfl) (.here (by decide) rfl)) (fun h => absurd h.1 (by decide))))

/-- It is always written as for the builder's result in the order of the text. -/
example {fuel : Nat} {σ : Sched} {b : Built} (h : BuildWithCtx lib0 7 exListResolve fuel σ exListSchema = .ok b) (isPrint : Nat → Bool) (τ : Sched) :
    process isPrint [⟨b! "List", b.table, some b.root, fun n => decide (n = b! "#")⟩] τ =
      process isPrint [⟨b! "List", exListBuilt.table, some exListBuilt.root, fun n => decide (n = b! "#")⟩] sched0 :=
  C108_text exList_keyed h (show BuildWithCtx lib0 7 exListResolve 10 sched0 exListSchema = .ok exListBuilt from rfl)
    (fun n n' h h' => by simp only [decide_eq_true_eq] at h h'; rw [h, h']) isPrint _ _ _

/-- The command writes the same file for the linked list and the bag in every order. -/
example : ∃ d' N, (exCli (b! "v.go") (b! "My") id).run 10 sched0 exDisk = (.exit 0, d') ∧
    ∀ fuel', N ≤ fuel' → ∀ σ', (exCli (b! "v.go") (b! "My") id).run fuel' σ' exDisk = (.exit 0, d') := by
  have h0 : ((exCli (b! "v.go") (b! "My") id).run 10 sched0 exDisk).1 = .exit 0 := by decide +kernel
  rcases e : (exCli (b! "v.go") (b! "My") id).run 10 sched0 exDisk with ⟨r, d'⟩
  rw [e] at h0
  cases h0
  have hp : (exCli (b! "v.go") (b! "My") id).Proper exDisk := by
    intro o text doc ss _ _ _ ha s hs
    generalize o.pointer = ptrs at ha
    cases ha with
    | whole h => cases h
    | parts hne hf =>
      obtain ⟨ptr, -, p, v, m2, h1, h2, h3, h4⟩ := forall2_right hf s hs
      simp only [exCli] at h4
      split_ifs at h4
      · cases h4; exact exList_keyed
      · cases h4; exact exBag_keyed
  obtain ⟨N, hN⟩ := C108_command hp (fun i n n' h _ => (by cases h)) e
  exact ⟨d', N, rfl, hN⟩

/-- So does gentest. -/
example : ∃ d' N, ∀ fuel', N ≤ fuel' → ∀ σ', (exGentest [b! "gentest", b! "s.json", b! "v_test.go"]).run fuel' σ' exDisk = (.exit 0, d') := by
  have h0 : ((exGentest [b! "gentest", b! "s.json", b! "v_test.go"]).run 10 sched0 exDisk).1 = .exit 0 := by decide +kernel
  rcases e : (exGentest [b! "gentest", b! "s.json", b! "v_test.go"]).run 10 sched0 exDisk with ⟨r, d'⟩
  rw [e] at h0
  cases h0
  refine ⟨d', C108_gentest (fun src text s _ _ hr => ?_) (fun n n' h h' => ?_) e⟩
  · simp only [exGentest] at hr
    split_ifs at hr
    cases hr
    exact exList_keyed
  · simp only [exGentest, decide_eq_true_eq] at h h'
    rw [h, h']

/-- And the server. -/
example : ∃ code N, ∀ fuel', N ≤ fuel' → ∀ σ', ((exGentest []).toServer exListSchema).generate fuel' σ' (b! "{}") =
    .answered 200 (some (b! "application/json; charset=utf-8")) [.json (.code code)] := by
  have h0 : ∃ code, ((exGentest []).toServer exListSchema).generate 10 sched0 (b! "{}") =
      .answered 200 (some (b! "application/json; charset=utf-8")) [.json (.code code)] := by
    have h1 : ∀ h : HttpEnd, (match h with
        | .answered 200 (some ct) [.json (.code _)] => decide (ct = b! "application/json; charset=utf-8")
        | _ => false) = true → ∃ code, h = .answered 200 (some (b! "application/json; charset=utf-8")) [.json (.code code)] := by
      intro h hh
      split at hh
      · next ct code => exact ⟨code, by rw [of_decide_eq_true hh]⟩
      · cases hh
    exact h1 _ (by decide +kernel)
  obtain ⟨code, h⟩ := h0
  refine ⟨code, C108_server (fun s doc hr _ => ?_) (fun n n' h h' => ?_) h⟩
  · simp only [GentestLib.toServer, exGentest, if_true] at hr
    cases hr
    exact exList_keyed
  · simp only [GentestLib.toServer, exGentest, decide_eq_true_eq] at h h'
    rw [h, h']

/-- Two references of which neither can be built: one leads nowhere, the other to something that is no schema. -/
def exTwoBad : Schema := .mk { type := [.object], properties := [(b! "a", .mk { reference := b! "x" }), (b! "b", .mk { reference := b! "y" })] }

/-- The command on it. -/
def exTwoBadCli : CliLib (Option GoStr) GoStr GoStr := { exCli [] [] id with
    extract := fun _ => some exTwoBad, resolve := fun _ n => if n = b! "y" then .other else .fail }

/-- C108: which failure is reported does depend on the order: here the status is 1 or 2. -/
theorem C108_status_varies : ∃ σ σ', (exTwoBadCli.run 10 σ exDisk).1 = .exit 1 ∧ (exTwoBadCli.run 10 σ' exDisk).1 = .exit 2 :=
  ⟨sched0, turnAt 3, by decide +kernel, by decide +kernel⟩

/-- A schema for anything, and one for an object with two properties that refer to schemas for anything. All three are `EmptyConstraint`. -/
def exAnyCli : CliLib (Option GoStr) GoStr GoStr := { exCli [] [] id with
    extract := fun m => if m = some (b! "/list") then some (.mk {}) else if m = some (b! "/bag") then some (.mk
      { type := [.object], properties := [(b! "p", .mk { reference := b! "a" }), (b! "q", .mk { reference := b! "b" })] }) else none
    resolve := fun _ n => if n = b! "a" ∨ n = b! "b" then .schema (.mk {}) else .fail
    same := fun i n => decide (i = 0 ∧ (n = b! "a" ∨ n = b! "b")) }

/-- C108: the condition on identical constraints cannot be dropped: here two runs of the command succeed and write different code. -/
theorem C108_alias_needed : exAnyCli.Proper exDisk ∧ ∃ σ σ', (exAnyCli.run 10 σ exDisk).1 = .exit 0 ∧ (exAnyCli.run 10 σ' exDisk).1 = .exit 0 ∧
    (exAnyCli.run 10 σ exDisk).2.stdout ≠ (exAnyCli.run 10 σ' exDisk).2.stdout := by
  refine ⟨fun o text doc ss _ _ _ ha s hs => ?_, sched0, turnAt 4, by decide +kernel, by decide +kernel, by decide +kernel⟩
  refine ⟨?_, fun n s1 _ h => ?_⟩
  · generalize o.pointer = ptrs at ha
    cases ha with
    | whole h => cases h
    | parts hne hf =>
      obtain ⟨ptr, -, p, v, m2, h1, h2, h3, h4⟩ := forall2_right hf s hs
      simp only [exAnyCli] at h4
      split_ifs at h4
      · cases h4; exact Schema.keyed_of_check _ (by decide)
      · cases h4; exact Schema.keyed_of_check _ (by decide)
  · simp only [exAnyCli] at h
    split_ifs at h
    · cases h; exact Schema.keyed_of_check _ (by decide)
    · cases h

end Jsval
