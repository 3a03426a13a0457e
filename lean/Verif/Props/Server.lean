import Verif.Spec.Server
import Verif.Lemmas.Server
import Verif.Props.Buildable
/-!
# The server (C82-C85)
-/
namespace Jsval
open Go
variable {D : Type} {L : ServerLib D} {fuel : Nat} {σ : Sched} {body : GoStr}

/-! ## C82 -/

/-- C82: the answer says success and gives this code exactly if the body is a schema from which it is generated. -/
theorem C82_success (code : GoStr) :
    (∃ st ct, L.generate fuel σ body = .answered st ct [.json (.code code)]) ↔ L.Makes fuel σ body code := by
  constructor
  · rintro ⟨st, ct, h⟩
    unfold ServerLib.generate at h
    split at h
    · cases h
    · next s hs =>
      split at h
      · cases h
      · next m hm =>
        split at h
        · cases h
        · cases h
        · cases h
        · next b hb =>
          split at h
          · cases h
          · cases h
          · cases h
          · next t ht =>
            split at h
            · cases h
            · next u hu =>
              cases h
              exact ⟨s, m, b, t, hs, hm, hb, ht, hu⟩
  · rintro ⟨s, m, b, t, hs, hm, hb, ht, hu⟩
    refine ⟨200, some (b! "application/json; charset=utf-8"), ?_⟩
    unfold ServerLib.generate
    simp only [hs, hm, hb, ServerLib.val, ht, hu]
    rfl

/-- C82: every answer has status 200 and is one JSON object: code, labelled as JSON, or (missing: the label) an error message. There is no
answer only if building or generating panics or does not end. -/
theorem C82_answer_partial {st : Nat} {ct : Option GoStr} {bs : List Body} (h : L.generate fuel σ body = .answered st ct bs) :
    st = 200 ∧ ((∃ code, bs = [.json (.code code)] ∧ SaysJson ct) ∨ ∃ why, bs = [.json (.failure why)] ∧ ct = none) := by
  have hf : ∀ why, failWith why = .answered st ct bs →
      st = 200 ∧ ((∃ code, bs = [.json (.code code)] ∧ SaysJson ct) ∨ ∃ why, bs = [.json (.failure why)] ∧ ct = none) := by
    intro why h
    cases h
    exact ⟨rfl, .inr ⟨why, rfl, rfl⟩⟩
  unfold ServerLib.generate at h
  split at h
  · exact hf _ h
  · split at h
    · exact hf _ h
    · split at h
      · exact hf _ h
      · cases h
      · cases h
      · split at h
        · exact hf _ h
        · cases h
        · cases h
        · split at h
          · exact hf _ h
          · cases h
            exact ⟨rfl, .inl ⟨_, rfl, b! "; charset=utf-8", rfl⟩⟩

/-- A server for documents with the linked list. A body `x` is no schema; a body `y` has a name that cannot be resolved. -/
def exServer : ServerLib Unit where
  readSchema t := if t = b! "x" then none else if t = b! "y" then some (.mk { reference := b! "y" }) else some exListSchema
  decode _ := some ()
  lib := lib0
  resolve _ := exListResolve
  same n := decide (n = b! "#")
  isPrint _ := true
  format t := if (parseProg t).isSome then some t else none
  parses := true
  execute := some (b! "<!doctype html>")

/-- C82 as worded is false: error messages are JSON but are not labelled as such. -/
theorem C82_refuted : ∃ st ct why, exServer.generate 10 sched0 (b! "y") = .answered st ct [.json (.failure why)] ∧ ¬ SaysJson ct :=
  ⟨200, none, .build .resolve, rfl, fun ⟨_, h⟩ => (nomatch h)⟩

/-- The answer has code. -/
def HttpEnd.hasCode : HttpEnd → Bool
  | .answered _ _ [.json (.code _)] => true
  | _ => false

/-- A request that is answered with code. -/
example : ∃ code, exServer.Makes 10 sched0 (b! "{}") code := by
  have h : (exServer.generate 10 sched0 (b! "{}")).hasCode = true := by decide +kernel
  unfold HttpEnd.hasCode at h
  split at h
  · next code e => exact ⟨code, (C82_success code).1 ⟨_, _, e⟩⟩
  · cases h

/-! ## C83 -/

/-- From a theorem about generated programs to one about the answer. -/
theorem answer_of {s : Schema} {m : D} (Q : Mem → Constraint → Prop) (hread : L.readSchema body = some s) (hdec : L.decode body = some m)
    {fuel : Nat} {σ : Sched} {b : Built} (hb : BuildWithCtx L.lib 0 (L.resolve m) fuel (σ.sub 0) s = .ok b)
    (hroot : ∀ s1, Reaches (L.resolve m) s (b! "#") → ((L.resolve m) (b! "#")).target = .ok s1 → s1 = s)
    (hsame : ∀ n c, alookup n b.table = some c → L.same n = true → c = b.root)
    (hlayout : ∀ t p, parseProg t = some p → ∃ u, L.format t = some u ∧ parseProg u = some p)
    (hgen : ∀ jobs : List Job, (∀ j ∈ jobs, j.schema = s) → AllBuilt L.lib (L.resolve m) jobs → OneRoot (L.resolve m) (jobs.map (·.schema)) →
      GoodNames (jobs.map Job.val) →
      (∀ j ∈ jobs, ∀ n c, firstRef n (jobs.map Job.val) = some c → j.same n = true → c = j.built.root) →
      ∃ t p mem, process L.isPrint (jobs.map Job.val) (σ.sub 1) = .ok t ∧ parseProg t = some p ∧ p.run = some mem ∧
        ∀ (i : Nat) (j : Job) (x : GoStr), jobs[i]? = some j → (valNames (jobs.map Job.val))[i]? = some x →
        ∃ jv c', alookup x mem.vars = some (.jv jv) ∧ jv.name = x ∧ jv.root = some c' ∧ Q mem c') :
    ∃ ct code p mem, L.generate fuel σ body = .answered 200 ct [.json (.code code)] ∧ SaysJson ct ∧ parseProg code = some p ∧ p.run = some mem ∧
      ∃ jv c', alookup (b! "V0") mem.vars = some (.jv jv) ∧ jv.name = b! "V0" ∧ jv.root = some c' ∧ Q mem c' := by
  have hsing : ∀ {P : Job → Prop} {x : Job}, P x → ∀ j ∈ [x], P j := by
    intro P x h j hj
    rw [List.mem_singleton.1 hj]
    exact h
  have hvn : valNames (List.map Job.val [⟨[], s, 0, b, L.same⟩]) = [b! "V0"] := by
    simp only [List.map_cons, List.map_nil, Job.val, valNames]
    rfl
  obtain ⟨t, p, mem, h1, h2, h3, h4⟩ := hgen [⟨[], s, 0, b, L.same⟩] (hsing rfl)
    (hsing ⟨fuel, σ.sub 0, hb⟩)
    ⟨fun s' hs' h => by
      have : s' = s := by simpa using hs'
      subst this
      exact fun s1 => hroot s1 h,
     fun s' hs' s'' hs'' _ _ => by
      have h1 : s' = s := by simpa using hs'
      have h2 : s'' = s := by simpa using hs''
      rw [h1, h2]⟩
    (by
      have hg := cliVar_good (o := ⟨[], [], [], []⟩) ⟨⟨by intro c t h; simp at h, by simp⟩, by intro t h; simp at h⟩ 0
      have e : cliVar ⟨[], [], [], []⟩ 0 = b! "V0" := rfl
      rw [e] at hg
      refine ⟨?_, ?_, ?_⟩
      · rw [hvn]; exact fun x hx => by rw [List.mem_singleton.1 hx]; exact hg.1
      · rw [hvn]; simp
      · rw [hvn]; exact fun x hx => by rw [List.mem_singleton.1 hx]; exact hg.2 _)
    (hsing (fun n c hc hs => hsame n c (by
      simp only [firstRef, Job.val, List.map_cons, List.map_nil, List.findSome?_cons, List.findSome?_nil] at hc
      cases ha : alookup n b.table with
      | none => rw [ha] at hc; cases hc
      | some c' => rw [ha] at hc; exact hc) hs))
  obtain ⟨u, hu, hup⟩ := hlayout t p h2
  obtain ⟨st, ct, hans⟩ := (C82_success u).2 ⟨s, m, b, t, hread, hdec, hb, h1, hu⟩
  have hp := C82_answer_partial hans
  obtain ⟨rfl, ⟨code, -, hct⟩ | ⟨why, hbs, -⟩⟩ := hp
  · exact ⟨ct, u, p, mem, hans, hct, hup, h3, h4 0 _ (b! "V0") rfl (by rw [hvn]; rfl)⟩
  · cases hbs

/-- C83: if the body is a schema in the fragment that builder and generator carry over, whose references lead somewhere, are
finitely many and cannot go on forever at one place, then (given enough fuel) the request is answered with success and code,
whatever the iteration orders. The code is a Go program that, when run, sets up a validator `V0` that accepts exactly the documents valid
for the schema. -/
theorem C83_answer {ext : Ext} {cls : DocClass} {s : Schema} {m : D} (hread : L.readSchema body = some s)
    (hdec : L.decode body = some m) (hres : Resolves L.lib.formats (L.resolve m) s)
    (hfaith : Faithful ext L.lib.formats cls (L.resolve m) s) (hground : Grounded (L.resolve m) s)
    (hsame : ∀ fuel σ b, BuildWithCtx L.lib 0 (L.resolve m) fuel σ s = .ok b → ∀ n c, alookup n b.table = some c →
      L.same n = true → c = b.root)
    (hlayout : ∀ t p, parseProg t = some p → ∃ u, L.format t = some u ∧ parseProg u = some p) :
    ∃ fuel, ∀ fuel', fuel ≤ fuel' → ∀ σ, ∃ ct code p mem,
      L.generate fuel' σ body = .answered 200 ct [.json (.code code)] ∧ SaysJson ct ∧ parseProg code = some p ∧ p.run = some mem ∧
      ∃ jv c', alookup (b! "V0") mem.vars = some (.jv jv) ∧ jv.name = b! "V0" ∧ jv.root = some c' ∧
        (∃ R, Meaning ext (L.resolve m) s R) ∧ ∀ R, Meaning ext (L.resolve m) s R → ∀ v, Doc cls v → ∀ τ,
          (s.Valid ext R v ↔ Returns ext mem.env c' τ v .ok v) ∧ (¬ s.Valid ext R v ↔ ∃ e, Returns ext mem.env c' τ v (.err e) v) := by
  obtain ⟨N, hN⟩ := (C81_conforming (m := 0) hfaith.conforms hfaith.refConforms hres).2
  refine ⟨N, fun fuel' hf σ => ?_⟩
  obtain ⟨b, hb⟩ := hN fuel' hf (σ.sub 0)
  exact answer_of (fun mem c' => (∃ R, Meaning ext (L.resolve m) s R) ∧ ∀ R, Meaning ext (L.resolve m) s R → ∀ v, Doc cls v → ∀ τ,
      (s.Valid ext R v ↔ Returns ext mem.env c' τ v .ok v) ∧ (¬ s.Valid ext R v ↔ ∃ e, Returns ext mem.env c' τ v (.err e) v))
    hread hdec hb hres.rootSame (hsame _ _ _ hb) hlayout (fun jobs hj hall hone hgood hs => by
      obtain ⟨t, p, mem, h1, h2, h3, h4⟩ := C75_generated (isPrint := L.isPrint) (ext := ext) (cls := cls) hall hone
        (fun j h => by rw [hj j h]; exact hfaith) (fun j h => by rw [hj j h]; exact hground) hgood hs (σ.sub 1)
      refine ⟨t, p, mem, h1, h2, h3, fun i j x hi hx => ?_⟩
      have := h4 i j x hi hx
      rwa [hj j (List.mem_of_getElem? hi)] at this)

/-- The linked list; its root is registered as `#`, and the identity test says so. -/
example (ext : Ext) : ∃ fuel, ∀ fuel', fuel ≤ fuel' → ∀ σ, ∃ ct code p mem,
    exServer.generate fuel' σ (b! "{}") = .answered 200 ct [.json (.code code)] ∧ parseProg code = some p ∧ p.run = some mem ∧
    ∃ jv c', alookup (b! "V0") mem.vars = some (.jv jv) ∧ jv.root = some c' ∧
      ∀ R, Meaning ext exListResolve exListSchema R → ∀ v, Doc anyDoc v → ∀ τ,
        (exListSchema.Valid ext R v ↔ Returns ext mem.env c' τ v .ok v) := by
  have huse : exListSchema.UsesRef lib0.formats (b! "#") :=
    .child rfl (.property (.inl (by simp)) (List.mem_cons_self ..)) (.here (by decide) rfl)
  obtain ⟨N, h⟩ := C83_answer (L := exServer) (body := b! "{}") (ext := ext) (cls := anyDoc) (m := ()) rfl rfl exList_resolves
    (exJobs_faithful ext anyDoc _ (List.mem_cons_self ..)) (exJobs_grounded _ (List.mem_cons_self ..))
    (fun fuel σ b hb n c hc hs => by
      have hn : n = b! "#" := by simpa [exServer] using hs
      subst hn
      rw [root_registered hb huse] at hc
      cases hc
      rfl)
    (fun t p h => ⟨t, by simp [exServer, h], h⟩)
  refine ⟨N, fun fuel' hf σ => ?_⟩
  obtain ⟨ct, code, p, mem, h1, -, h2, h3, jv, c', a, -, b, -, e⟩ := h fuel' hf σ
  exact ⟨ct, code, p, mem, h1, h2, h3, jv, c', a, b, fun R hR v hv τ => (e R hR v hv τ).1⟩

/-! ## C84 -/

/-- C84: every request is answered as a fresh server would answer it, whatever other requests are or have been in
progress. -/
theorem C84_isolated {es : List SEvent} {s : SState} (hr : SRun L fuel .init es s) {th : Nat} {r : Request} {t : Option Nat}
    {e : HttpEnd} (h : .answer th r t e ∈ es) : ∃ σ, e = L.serve fuel σ false r := by
  generalize hi : SState.init = s0 at hr
  induction hr with
  | nil => simp at h
  | @snoc es s' ev s'' hr hs ih =>
    rcases List.mem_append.1 h with h | h
    · exact ih h
    · have inv : SInv L s' := sInv_run (hi ▸ sInv_init) hr
      simp only [List.mem_singleton] at h
      subst h
      cases hs with
      | generate σ hp h1 =>
        refine ⟨σ, ?_⟩
        simp [ServerLib.serve, h1]
      | other hp h1 h2 =>
        refine ⟨fun _ => 0, ?_⟩
        simp [ServerLib.serve, h1, h2]
      | page hp =>
        have hx := inv.index th
        rw [hp] at hx
        have hpath : r.path = b! "/" := by simpa [SPc.forIndex] using hx
        refine ⟨fun _ => 0, ?_⟩
        simp only [ServerLib.serve, hpath, if_true, Bool.false_or]
        cases t with
        | none =>
          have := inv.failed th (by rw [hp]; rfl)
          rw [this]
          rfl
        | some t =>
          have : L.parses = true := by
            by_contra hc
            have hgot := inv.got th t (by rw [hp]; rfl)
            rcases parsed_run (hi ▸ hr) with ⟨-, h0, -⟩ | ⟨_, _, _, -, h0, -⟩ | ⟨t', h0, -⟩
            · rw [hgot] at h0; cases h0
            · rw [hgot] at h0; cases h0
            · exact hc (parses_of_parsed hr (by rw [h0]; simp))
          rw [this]
          rfl

/-- C84: templates are parsed once at most, and every index page is made from that template. -/
theorem C84_once {es : List SEvent} {s : SState} (hr : SRun L fuel .init es s) :
    (parsedIds es = [] ∧ ∀ th r t e, SEvent.answer th r (some t) e ∉ es) ∨
    ∃ t, parsedIds es = [t] ∧ ∀ th r t' e, SEvent.answer th r (some t') e ∈ es → t' = t := by
  have key : ∀ {es s}, SRun L fuel .init es s → ∀ th r t e, SEvent.answer th r (some t) e ∈ es → parsedIds es = [t] := by
    intro es s hr
    generalize hi : SState.init = s0 at hr
    induction hr with
    | nil => simp
    | @snoc es s' ev s'' hr hs ih =>
      intro th r t e h
      have hall := parsed_run (hi ▸ SRun.snoc hr hs)
      rcases List.mem_append.1 h with h | h
      · have h1 := ih th r t e h
        rw [parsedIds_snoc, h1] at hall ⊢
        rcases hall with ⟨h0, -⟩ | ⟨_, _, _, h0, -⟩ | ⟨t', h0, -⟩
        · simp at h0
        all_goals
          have : parsedIds [ev] = [] := by
            have := congrArg List.length h0
            simp at this
            exact this
          rw [this]; rfl
      · simp only [List.mem_singleton] at h
        subst h
        cases hs with
        | page hp =>
          have hgot := (sInv_run (hi ▸ sInv_init) hr : SInv L s').got th t (by rw [hp]; rfl)
          rcases hall with ⟨-, h0, -⟩ | ⟨_, _, _, -, h0, -⟩ | ⟨t', h0, h1⟩
          · simp only [hgot] at h0; cases h0
          · simp only [hgot] at h0; cases h0
          · simp only [hgot] at h1; cases h1; exact h0
  rcases parsed_run hr with ⟨h, -⟩ | ⟨t, _, _, h, -⟩ | ⟨t, h, -⟩
  · exact .inl ⟨h, fun th r t e he => by have := key hr th r t e he; rw [h] at this; cases this⟩
  all_goals exact .inr ⟨t, h, fun th r t' e he => by have := key hr th r t' e he; rw [h] at this; cases this; rfl⟩

/-- C84: no two goroutines are between `Lock` and `Unlock`. -/
theorem C84_exclusive {es : List SEvent} {s : SState} (hr : SRun L fuel .init es s) {th th' : Nat} (h : s.Inside th) (h' : s.Inside th') :
    th = th' := by
  have inv : SInv L s := sInv_run sInv_init hr
  have hc : ∀ {th}, s.Inside th → (s.pc th).critical = true := by
    rintro th ⟨r, h | h | ⟨t, h⟩ | ⟨t, h⟩⟩ <;> rw [h] <;> rfl
  have h1 := (inv.hold th).2 (hc h)
  rw [(inv.hold th').2 (hc h')] at h1
  cases h1; rfl

/-! ## C85 -/

/-- C85: while a request is in progress, some request in progress can take a step. -/
theorem C85_no_deadlock {es : List SEvent} {s : SState} (hr : SRun L fuel .init es s) {th : Nat} (h : s.pc th ≠ .idle) :
    ∃ e s', SStep L fuel s e s' ∧ e.Continues := by
  have inv : SInv L s := sInv_run sInv_init hr
  cases hh : s.holder with
  | none => exact sCanGo h (fun _ _ => hh)
  | some th' =>
    have hc := (inv.hold th').1 hh
    refine sCanGo (th := th') ?_ ?_
    · intro h0; rw [h0] at hc; cases hc
    · intro r h0; rw [h0] at hc; cases hc

/-- C85: if no new requests come in, then however those in progress are scheduled there is a bound on the steps they take,
and they only stop when all are answered. -/
theorem C85_completes {es : List SEvent} {s : SState} (hr : SRun L fuel .init es s) :
    ∃ B, ∀ es' s', SRun L fuel s es' s' → (∀ e ∈ es', e.Continues) →
      es'.length ≤ B ∧ (s'.AllDone ∨ ∃ e s'', SStep L fuel s' e s'' ∧ e.Continues) := by
  obtain ⟨K, hK⟩ := sFinite_run hr
  refine ⟨sWork K s, fun es' s' hr' he => ⟨by have := (sWork_run hK hr' he).1; omega, ?_⟩⟩
  by_cases hd : s'.AllDone
  · exact .inl hd
  · right
    unfold SState.AllDone at hd
    push Not at hd
    obtain ⟨t, ht⟩ := hd
    exact C85_no_deadlock (hr.trans hr') ht

/-- Two requests for the index page and one for code: the second waits for the mutex while the first has parsed and the
third is served. -/
example : ∃ es s, SRun exServer 10 .init es s ∧ s.Inside 0 ∧ s.pc 1 = .want ⟨b! "/", []⟩ ∧ s.pc 2 = .idle ∧ parsedIds es = [0] ∧
    .answer 2 ⟨b! "/generate.json", b! "x"⟩ none (failWith .schema) ∈ es := by
  have h := ((((((((((SRun.nil (L := exServer) (fuel := 10) .init).snoc (.request (th := 0) ⟨b! "/", []⟩ rfl)).snoc
    (.index (th := 0) (r := ⟨b! "/", []⟩) rfl rfl)).snoc (.lock (th := 0) (r := ⟨b! "/", []⟩) rfl rfl)).snoc
    (.request (th := 1) ⟨b! "/", []⟩ rfl)).snoc (.index (th := 1) (r := ⟨b! "/", []⟩) rfl rfl)).snoc
    (.missing (th := 0) (r := ⟨b! "/", []⟩) rfl rfl)).snoc (.request (th := 2) ⟨b! "/generate.json", b! "x"⟩ rfl)).snoc
    (.parse (th := 0) (r := ⟨b! "/", []⟩) rfl rfl)).snoc
    (.generate (th := 2) (r := ⟨b! "/generate.json", b! "x"⟩) sched0 rfl rfl)).snoc (.store (th := 0) (r := ⟨b! "/", []⟩) (t := 0) rfl)
  exact ⟨_, _, h, ⟨⟨b! "/", []⟩, .inr (.inr (.inr ⟨some 0, rfl⟩))⟩, rfl, rfl, rfl, by
    simp only [List.nil_append, List.cons_append, List.mem_cons]
    exact .inr (.inr (.inr (.inr (.inr (.inr (.inr (.inr (.inl rfl))))))))⟩

/-! ## C89 -/

theorem generate_answers {st : Nat} {ct : Option GoStr} {bs : List Body} {r : Request} (hp : r.path = b! "/generate.json")
    (h : L.generate fuel σ r.body = .answered st ct bs) : L.Answers fuel r st ct bs := by
  have hf : ∀ why, failWith why = .answered st ct bs → L.FailsFor fuel σ r.body why → L.Answers fuel r st ct bs := by
    intro why h hw
    cases h
    exact .noCode hp hw
  unfold ServerLib.generate at h
  split at h
  · next hs => exact hf _ h (.schema hs)
  · next s hs =>
    split at h
    · next hm => exact hf _ h (.json hs hm)
    · next m hm =>
      split at h
      · next e he => exact hf _ h (.build hs hm he)
      · cases h
      · cases h
      · next b hb =>
        split at h
        · next he => exact hf _ h (.generate hs hm hb he)
        · cases h
        · cases h
        · next t ht =>
          split at h
          · next hu => exact hf _ h (.format hs hm hb ht hu)
          · next u hu =>
            cases h
            exact .code hp ⟨s, m, b, t, hs, hm, hb, ht, hu⟩

/-- C89: whatever goes on at the same time, an answer is what it is to be: the page, or status 500 if the page cannot be made;
the code, or the first thing that went wrong in making it; status 404 for all other paths. -/
theorem C89_answers {es : List SEvent} {s : SState} (hr : SRun L fuel .init es s) {th : Nat} {r : Request} {t : Option Nat}
    {st : Nat} {ct : Option GoStr} {bs : List Body} (h : .answer th r t (.answered st ct bs) ∈ es) : L.Answers fuel r st ct bs := by
  obtain ⟨σ, he⟩ := C84_isolated hr h
  unfold ServerLib.serve at he
  split at he
  · next hp =>
    rw [Bool.false_or] at he
    unfold ServerLib.index at he
    cases hpar : L.parses with
    | false =>
      rw [hpar, if_neg (by simp)] at he
      cases he
      exact .noPage hp (Or.inl hpar)
    | true =>
      rw [hpar, if_pos rfl] at he
      cases hx : L.execute with
      | none =>
        rw [hx] at he
        cases he
        exact .noPage hp (Or.inr hx)
      | some page =>
        rw [hx] at he
        cases he
        exact .page hp hpar hx
  · next hp =>
    split at he
    · next hp' => exact generate_answers hp' he.symm
    · next hp' =>
      cases he
      exact .unknown hp hp'

/-- C89: only requests for code can go without an answer. -/
theorem C89_answered {es : List SEvent} {s : SState} (hr : SRun L fuel .init es s) {th : Nat} {r : Request} {t : Option Nat} {e : HttpEnd}
    (h : .answer th r t e ∈ es) (hp : r.path ≠ b! "/generate.json") : ∃ st ct bs, e = .answered st ct bs := by
  obtain ⟨σ, rfl⟩ := C84_isolated hr h
  unfold ServerLib.serve
  split
  · unfold ServerLib.index
    split
    · split
      · exact ⟨_, _, _, rfl⟩
      · exact ⟨_, _, _, rfl⟩
    · exact ⟨_, _, _, rfl⟩
  · exact ⟨_, _, _, rfl⟩

/-- A request for an unknown path, with the body of a request for code. -/
def exLost : Request := ⟨b! "/generate", b! "{}"⟩

/-- Two requests overlap: the one for an unknown path is answered with status 404, the one whose body is no schema with the reason. -/
example : ∃ es s, SRun exServer 10 .init es s ∧
    .answer 1 exLost none (.answered 404 (some (b! "text/plain; charset=utf-8")) [.message (b! "404 page not found")]) ∈ es ∧
    .answer 2 ⟨b! "/generate.json", b! "x"⟩ none (.answered 200 none [.json (.failure .schema)]) ∈ es := by
  have h1 : SRun exServer 10 .init _ _ := .snoc (.nil _) (.request (th := 1) exLost rfl)
  have h2 := SRun.snoc h1 (.request (th := 2) ⟨b! "/generate.json", b! "x"⟩ rfl)
  have h3 := SRun.snoc h2 (.other (th := 1) (r := exLost) rfl (by decide) (by decide))
  have h4 := SRun.snoc h3 (.generate (th := 2) (r := ⟨b! "/generate.json", b! "x"⟩) sched0 rfl rfl)
  exact ⟨_, _, h4, by simp; rfl, by simp; rfl⟩

end Jsval
