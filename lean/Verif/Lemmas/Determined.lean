import Verif.Lemmas.Refine
import Verif.Lemmas.Policies
import Verif.Lemmas.ObjExact
/-!
# Verdicts of default-free trees do not depend on iteration order
-/
namespace Jsval

/-- Never accepts in one order what it rejects in another. -/
def Compat (s : Sem) : Prop := ∀ v, Tidy v → ∀ σ τ, (s.val σ v).1 = .ok → ∀ e, (s.val τ v).1 ≠ .err e

/-- What the induction carries. -/
structure Steady (s : Sem) : Prop where
  ro : s.ReadOnly
  dflt : ∀ dv, s.dflt ≠ .some dv
  compat : Compat s

theorem compat_pure {d : Dflt} {f : GoVal → Res} : Compat ⟨d, pureV f⟩ := by
  intro v _ σ τ h e h'
  simp only [pureV] at h h'
  rw [h] at h'; cases h'

variable {C : Type} {f : C → Sem}

theorem anyLoop_compat {σ τ : Sched} {v : GoVal} (hv : Tidy v) : ∀ (cs : List Sem) (i : Nat), (∀ c ∈ cs, Steady c) →
    (anyLoop i cs σ v).1 = .ok → ∀ e, (anyLoop i cs τ v).1 ≠ .err e
  | [], i, _, h, e => by simp [anyLoop] at h
  | c :: cs, i, hc, h, e => by
    have hs := hc c (by simp)
    have ih := anyLoop_compat (σ := σ) (τ := τ) hv cs (i + 1) (fun c h => hc c (by simp [h]))
    have h1 := hs.ro v (σ.sub i)
    have h2 := hs.ro v (τ.sub i)
    have h3 := hs.compat v hv (σ.sub i) (τ.sub i)
    simp only [anyLoop] at h ⊢
    rcases e1 : c.val (σ.sub i) v with ⟨r1, v1⟩
    rcases e2 : c.val (τ.sub i) v with ⟨r2, v2⟩
    rw [e1] at h1 h h3; rw [e2] at h2 h3
    simp only at h1 h2; subst h1 h2
    cases r2 with
    | ok => simp
    | abort a => simp
    | err e' =>
      simp only
      cases r1 with
      | ok => exact absurd rfl (h3 rfl e')
      | abort a => simp at h
      | err e'' => exact ih h e

theorem allLoop_compat {σ τ : Sched} {v : GoVal} (hv : Tidy v) : ∀ (cs : List Sem) (i : Nat), (∀ c ∈ cs, Steady c) →
    (allLoop i cs σ v).1 = .ok → ∀ e, (allLoop i cs τ v).1 ≠ .err e
  | [], i, _, h, e => by simp [allLoop]
  | c :: cs, i, hc, h, e => by
    have hs := hc c (by simp)
    have ih := allLoop_compat (σ := σ) (τ := τ) hv cs (i + 1) (fun c h => hc c (by simp [h]))
    have h1 := hs.ro v (σ.sub i)
    have h2 := hs.ro v (τ.sub i)
    have h3 := hs.compat v hv (σ.sub i) (τ.sub i)
    simp only [allLoop] at h ⊢
    rcases e1 : c.val (σ.sub i) v with ⟨r1, v1⟩
    rcases e2 : c.val (τ.sub i) v with ⟨r2, v2⟩
    rw [e1] at h1 h h3; rw [e2] at h2 h3
    simp only at h1 h2; subst h1 h2
    cases r1 with
    | err a => simp at h
    | abort a => simp at h
    | ok =>
      cases r2 with
      | ok => exact ih h e
      | abort a => simp
      | err e' => exact absurd rfl (h3 rfl e')

theorem oneOfLoop_compat {σ τ : Sched} {v : GoVal} (hv : Tidy v) : ∀ (cs : List Sem) (i n : Nat), (∀ c ∈ cs, Steady c) →
    (oneOfLoop i n cs σ v).1 = .ok → ∀ e, (oneOfLoop i n cs τ v).1 ≠ .err e
  | [], i, n, _, h, e => by
    simp only [oneOfLoop] at h ⊢
    intro h'
    rw [h] at h'; cases h'
  | c :: cs, i, n, hc, h, e => by
    have hs := hc c (by simp)
    have ih := fun n => oneOfLoop_compat (σ := σ) (τ := τ) hv cs (i + 1) n (fun c h => hc c (by simp [h]))
    have h1 := hs.ro v (σ.sub i)
    have h2 := hs.ro v (τ.sub i)
    have h3 := hs.compat v hv (σ.sub i) (τ.sub i)
    have h4 := hs.compat v hv (τ.sub i) (σ.sub i)
    simp only [oneOfLoop] at h ⊢
    rcases e1 : c.val (σ.sub i) v with ⟨r1, v1⟩
    rcases e2 : c.val (τ.sub i) v with ⟨r2, v2⟩
    rw [e1] at h1 h h3 h4; rw [e2] at h2 h3 h4
    simp only at h1 h2; subst h1 h2
    cases r1 with
    | abort a => simp at h
    | err e1 =>
      cases r2 with
      | abort a => simp
      | err e' => exact ih _ h e
      | ok => exact absurd rfl (h4 rfl _)
    | ok =>
      cases r2 with
      | ok => exact ih _ h e
      | abort a => simp
      | err e' => exact absurd rfl (h3 rfl e')

theorem notV_compat {σ τ : Sched} {v : GoVal} (hv : Tidy v) (c : Option Sem) (hc : ∀ d, c = some d → Steady d)
    (h : (notV c σ v).1 = .ok) (e : Err) : (notV c τ v).1 ≠ .err e := by
  cases c with
  | none => simp [notV] at h
  | some c =>
    have h4 := (hc c rfl).compat v hv (τ.sub 0) (σ.sub 0)
    simp only [notV] at h ⊢
    rcases e1 : c.val (σ.sub 0) v with ⟨r1, v1⟩
    rcases e2 : c.val (τ.sub 0) v with ⟨r2, v2⟩
    rw [e1] at h h4; rw [e2] at h4
    cases r1 with
    | ok => simp at h
    | abort a => simp at h
    | err e1 =>
      cases r2 with
      | ok => exact absurd rfl (h4 rfl _)
      | abort a => simp
      | err e' => simp

theorem runItems_compat {c : Sem} (hc : Steady c) {σ τ : Sched} : ∀ (xs : List GoVal) (i : Nat), (∀ x ∈ xs, Tidy x) →
    (runItems c σ i xs).1 = .ok → ∀ e, (runItems c τ i xs).1 ≠ .err e
  | [], _, _, _, e => by simp [runItems]
  | x :: xs, i, hx, h, e => by
    have ih := runItems_compat hc (σ := σ) (τ := τ) xs (i + 1) (fun x h => hx x (by simp [h]))
    have h3 := hc.compat x (hx x (by simp)) (σ.sub i) (τ.sub i)
    simp only [runItems] at h ⊢
    rcases e1 : c.val (σ.sub i) x with ⟨r1, v1⟩
    rcases e2 : c.val (τ.sub i) x with ⟨r2, v2⟩
    rw [e1] at h h3; rw [e2] at h3
    cases r1 with
    | err a => simp at h
    | abort a => simp at h
    | ok =>
      cases r2 with
      | ok => exact ih h e
      | abort a => simp
      | err e' => exact absurd rfl (h3 rfl e')

theorem runItems_same {c : Sem} (hc : c.ReadOnly) {σ : Sched} : ∀ (xs : List GoVal) (i : Nat), (runItems c σ i xs).2 = xs
  | [], _ => rfl
  | x :: xs, i => by
    have ih := runItems_same hc (σ := σ) xs (i + 1)
    have h1 := hc x (σ.sub i)
    simp only [runItems]
    rcases e1 : c.val (σ.sub i) x with ⟨r1, v1⟩
    rw [e1] at h1
    simp only at h1; subst h1
    cases r1 <;> simp [ih]

theorem runPos_compat {σ τ : Sched} : ∀ (cs : List Sem) (xs : List GoVal) (i : Nat), (∀ c ∈ cs, Steady c) →
    (∀ x ∈ xs, Tidy x) → (runPos σ i cs xs).1 = .ok → ∀ e, (runPos τ i cs xs).1 ≠ .err e
  | [], xs, _, _, _, _, e => by simp [runPos]
  | _ :: _, [], _, _, _, _, e => by simp [runPos]
  | c :: cs, x :: xs, i, hc, hx, h, e => by
    have ih := runPos_compat (σ := σ) (τ := τ) cs xs (i + 1) (fun c h => hc c (by simp [h])) (fun x h => hx x (by simp [h]))
    have h3 := (hc c (by simp)).compat x (hx x (by simp)) (σ.sub i) (τ.sub i)
    simp only [runPos] at h ⊢
    rcases e1 : c.val (σ.sub i) x with ⟨r1, v1⟩
    rcases e2 : c.val (τ.sub i) x with ⟨r2, v2⟩
    rw [e1] at h h3; rw [e2] at h3
    cases r1 with
    | err a => simp at h
    | abort a => simp at h
    | ok =>
      cases r2 with
      | ok => exact ih h e
      | abort a => simp
      | err e' => exact absurd rfl (h3 rfl e')

theorem runPos_same {σ : Sched} : ∀ (cs : List Sem) (xs : List GoVal) (i : Nat), (∀ c ∈ cs, c.ReadOnly) →
    (runPos σ i cs xs).2 = xs
  | [], xs, _, _ => rfl
  | _ :: _, [], _, _ => rfl
  | c :: cs, x :: xs, i, hc => by
    have ih := runPos_same (σ := σ) cs xs (i + 1) (fun c h => hc c (by simp [h]))
    have h1 := hc c (by simp) x (σ.sub i)
    simp only [runPos]
    rcases e1 : c.val (σ.sub i) x with ⟨r1, v1⟩
    rw [e1] at h1
    simp only at h1; subst h1
    cases r1 <;> simp [ih]

theorem arrayElems_compat {a : ArrC Sem} (hc : ∀ c, a.Child c → Steady c) {σ τ : Sched} {xs : List GoVal}
    (hx : ∀ x ∈ xs, Tidy x) (h : (arrayElems a σ xs).1 = .ok) (e : Err) : (arrayElems a τ xs).1 ≠ .err e := by
  obtain ⟨items, pos, add, mn, mx, u⟩ := a
  unfold arrayElems at h ⊢
  simp only at h ⊢
  cases items with
  | some c => exact runItems_compat (hc c (.items rfl)) xs 0 hx h e
  | none =>
    simp only at h ⊢
    have s1 := runPos_same (σ := σ.sub 1) pos xs 0 (fun c h => (hc c (.positional h)).ro)
    have s2 := runPos_same (σ := τ.sub 1) pos xs 0 (fun c h => (hc c (.positional h)).ro)
    have h3 := runPos_compat (σ := σ.sub 1) (τ := τ.sub 1) pos xs 0 (fun c h => hc c (.positional h)) hx
    rcases e1 : runPos (σ.sub 1) 0 pos xs with ⟨r1, y1⟩
    rcases e2 : runPos (τ.sub 1) 0 pos xs with ⟨r2, y2⟩
    rw [e1] at h s1 h3; rw [e2] at s2 h3
    simp only at s1 s2; subst s1 s2
    cases r1 with
    | err a => simp at h
    | abort a => simp at h
    | ok =>
      cases r2 with
      | abort a => simp
      | err e' => exact absurd rfl (h3 rfl e')
      | ok =>
        simp only at h ⊢
        unfold runAdditional at h ⊢
        simp only at h ⊢
        split
        · rename_i hl
          rw [if_pos hl] at h
          cases add with
          | none => simp at h
          | some c =>
            exact runItems_compat (hc c (.additional rfl)) _ _ (fun x h => hx x (List.mem_of_mem_drop h)) h e
        · simp

theorem arrayV_compat {ext : Ext} {a : ArrC Sem} (hc : ∀ c, a.Child c → Steady c) {σ τ : Sched} {v : GoVal} (hv : Tidy v)
    (h : (arrayV ext a σ v).1 = .ok) (e : Err) : (arrayV ext a τ v).1 ≠ .err e := by
  cases hv with
  | slice n xs hx =>
    simp only [arrayV, valueOf] at h ⊢
    split at h
    · simp at h
    split at h
    · simp at h
    split at h
    · simp at h
    rename_i h1 h2 h3
    rw [if_neg h1, if_neg h2, if_neg h3]
    exact arrayElems_compat hc hx h e
  | _ => simp [arrayV, valueOf] at h

/-! ## Objects -/

/-- Aborts turned into silent acceptance. -/
def unabort (s : Sem) : Sem :=
  ⟨match s.dflt with | .abort _ => .none | d => d,
    fun σ v => match s.val σ v with | (.abort _, v') => (.ok, v') | r => r⟩

theorem below_unabort (s : Sem) : Below (fun _ => True) s (unabort s) := by
  refine ⟨fun h => ?_, fun σ v h => ?_⟩
  · unfold unabort
    cases hd : s.dflt with
    | abort a => exact absurd hd (h a trivial)
    | none => rfl
    | some d => rfl
  · unfold unabort
    rcases hs : s.val σ v with ⟨r, v'⟩
    rw [hs] at h
    cases r with
    | abort a => exact absurd rfl (h a trivial)
    | ok => simp [hs]
    | err e => simp [hs]

theorem unabort_readOnly {s : Sem} (h : s.ReadOnly) : (unabort s).ReadOnly := by
  intro v σ
  have h1 := h v σ
  unfold unabort
  simp only
  rcases hs : s.val σ v with ⟨r, v'⟩
  rw [hs] at h1
  simp only at h1; subst h1
  cases r <;> rfl

theorem unabort_accepts {s : Sem} (h : Compat s) {v : GoVal} (hv : Tidy v) {σ : Sched} (hok : (s.val σ v).1 = .ok) :
    (unabort s).Accepts v := by
  intro τ
  have h1 := h v hv σ τ hok
  unfold unabort
  simp only
  rcases hs : s.val τ v with ⟨r, v'⟩
  rw [hs] at h1
  cases r with
  | ok => rfl
  | abort a => rfl
  | err e => exact absurd rfl (h1 e)

theorem tidy_toGo (m : MaybeVal) : Tidy m.toGo := by
  cases m
  · exact .bool _
  · exact .float _ _
  · exact .int _ _
  · exact .str _
  · exact .time _
  · exact .uint _ _

theorem tidy_content {v x : GoVal} (hv : Tidy v) (h : fieldContent v = some x) : Tidy x := by
  unfold fieldContent at h
  split at h
  · split at h
    · cases h; exact tidy_toGo _
    · cases h
  · split at h
    · cases h; exact tidy_toGo _
    · cases h
  · cases h; exact hv

/-- A tidy value is an object with tidy properties, a time, or not an object. -/
theorem tidy_object {v : GoVal} (hv : Tidy v) :
    (∃ kvs raws, IsObj v kvs raws ∧ (∀ k x, (k, x) ∈ kvs → Tidy x) ∧ (∀ k x, (k, x) ∈ raws → Tidy x)) ∨
    (∃ t, (valueOf v).indirect = some (.time t)) ∨ (∃ s, getPropNames (valueOf v).indirect = .error s) := by
  have hstruct : ∀ fs : List (Field × GoVal), (∀ f x, (f, x) ∈ fs → Tidy x) →
      (∀ k x, (k, x) ∈ structProps fs → Tidy x) ∧ (∀ k x, (k, x) ∈ structRaw fs → Tidy x) := by
    intro fs h
    refine ⟨fun k x hx => ?_, fun k x hx => ?_⟩
    · obtain ⟨f, w, h1, -, h2⟩ := mem_structProps.1 hx
      exact tidy_content (h f w h1) h2
    · obtain ⟨f, w, h1, -, -⟩ := mem_structRaw.1 hx
      exact h f x h1
  cases hv with
  | map n kvs hn hx => exact Or.inl ⟨kvs, kvs, .map n kvs hn, hx, hx⟩
  | struct fs hf hx => exact Or.inl ⟨_, _, .struct fs hf, (hstruct fs hx).1, (hstruct fs hx).2⟩
  | time t => exact Or.inr (Or.inl ⟨t, rfl⟩)
  | ptr x hni hx =>
    cases hx with
    | map n kvs hn hx => exact Or.inl ⟨kvs, kvs, .ptrMap n kvs hn, hx, hx⟩
    | struct fs hf hx => exact Or.inl ⟨_, _, .ptrStruct fs hf, (hstruct fs hx).1, (hstruct fs hx).2⟩
    | time t => exact Or.inr (Or.inl ⟨t, rfl⟩)
    | ptrNil => exact absurd hni id
    | ptr => exact absurd hni id
    | _ => exact Or.inr (Or.inr ⟨_, rfl⟩)
  | _ => exact Or.inr (Or.inr ⟨_, rfl⟩)

/-- On a time value (an object without properties) only the bounds and the required names matter. -/
theorem objectV_time {ext : Ext} {o : ObjC Sem} (hd : ∀ p c, (p, c) ∈ o.props → ∀ dv, c.dflt ≠ .some dv) {v : GoVal}
    {t : GoTime} (hv : (valueOf v).indirect = some (.time t)) {σ τ : Sched} (h : (objectV ext o σ v).1 = .ok) (e : Err) :
    (objectV ext o τ v).1 ≠ .err e := by
  have hn : getPropNames (valueOf v).indirect = .ok [] := by rw [hv]; rfl
  have hview : ∀ p, viewProp (valueOf v).indirect p = .ok .absent := by intro p; rw [hv]; rfl
  unfold objectV at h ⊢
  simp only [hn] at h ⊢
  split at h
  · simp at h
  split at h
  · simp at h
  rename_i h1 h2
  rw [if_neg h1, if_neg h2]
  have hloop : ∀ (σ : Sched) (l : List (GoStr × Sem)) (i : Nat), (∀ x ∈ l, x ∈ o.props) →
      (forLoop (propStep ext o σ) i l ⟨v, [], []⟩).2 = ⟨v, [], []⟩ ∧
      ((forLoop (propStep ext o σ) i l ⟨v, [], []⟩).1 = .ok → ∀ x ∈ l, x.1 ∉ o.required) ∧
      ((∀ x ∈ l, x.1 ∉ o.required) → ∀ e, (forLoop (propStep ext o σ) i l ⟨v, [], []⟩).1 ≠ .err e) := by
    intro σ l
    induction l with
    | nil => intro i _; simp [forLoop]
    | cons x l ih =>
      intro i hl
      obtain ⟨p, c⟩ := x
      obtain ⟨i1, i2, i3⟩ := ih (i + 1) (fun x h => hl x (by simp [h]))
      have hdf := hd p c (hl _ (by simp))
      simp only [forLoop, propStep, hview]
      by_cases hr : p ∈ o.required
      · simp only [if_pos hr]
        refine ⟨by simp, fun h => by simp at h, fun h => absurd hr (h (p, c) (by simp))⟩
      · simp only [if_neg hr]
        cases hdc : c.dflt with
        | some dv => exact absurd hdc (hdf dv)
        | abort a => exact ⟨by simp, fun h => by simp at h, fun _ e h => by simp at h⟩
        | none =>
          simp only
          refine ⟨i1, fun h x hx => ?_, fun h => i3 (fun x hx => h x (by simp [hx]))⟩
          rcases List.mem_cons.1 hx with rfl | hx
          · exact hr
          · exact i2 h x hx
  have hpat : ∀ (σ : Sched) (l : List (Nat × GoStr × Sem)) (i : Nat),
      forLoop (patOuter ext σ) i l ⟨v, [], []⟩ = (.ok, ⟨v, [], []⟩) := by
    intro σ l
    induction l with
    | nil => intro i; rfl
    | cons x l ih => intro i; simp [forLoop, patOuter, shuffle, ih]
  have hobj : ∀ σ : Sched, objLoops ext o σ ⟨v, nameSet [], []⟩ =
      seqSt (forLoop (propStep ext o (σ.sub 1)) 0 (shuffle (σ.sub 0).key o.props) ⟨v, [], []⟩) (fun st => (.ok, st)) := by
    intro σ
    unfold objLoops
    obtain ⟨i1, -, -⟩ := hloop (σ.sub 1) (shuffle (σ.sub 0).key o.props) 0 (fun x h => mem_shuffle.1 h)
    show seqSt (forLoop (propStep ext o (σ.sub 1)) 0 (shuffle (σ.sub 0).key o.props) ⟨v, [], []⟩) _ = _
    rcases hx : forLoop (propStep ext o (σ.sub 1)) 0 (shuffle (σ.sub 0).key o.props) ⟨v, [], []⟩ with ⟨r, st⟩
    rw [hx] at i1
    simp only at i1; subst i1
    cases r with
    | ok => simp only [seqSt, hpat, addlPhase, List.length_nil, gt_iff_lt, Nat.lt_irrefl, if_false, shuffle, forLoop]
    | err e => rfl
    | abort a => rfl
  simp only [hobj] at h ⊢
  have hs := hloop (σ.sub 1) (shuffle (σ.sub 0).key o.props) 0 (fun x h => mem_shuffle.1 h)
  have ht := hloop (τ.sub 1) (shuffle (τ.sub 0).key o.props) 0 (fun x h => mem_shuffle.1 h)
  rw [seqSt_ok] at h
  have hreq := hs.2.1 h.1
  have := ht.2.2 (fun x hx => hreq x (mem_shuffle.2 (mem_shuffle.1 hx)))
  rcases hx : forLoop (propStep ext o (τ.sub 1)) 0 (shuffle (τ.sub 0).key o.props) ⟨v, [], []⟩ with ⟨r, st⟩
  rw [hx] at this
  cases r with
  | ok => simp [seqSt]
  | err e => exact absurd rfl (this e)
  | abort a => simp [seqSt]

theorem objectV_compat {ext : Ext} (o : ObjC C) (hw : o.Wf) (hc : ∀ c, o.Child c → Steady (f c))
    (hov : ∀ k, ¬ o.Declares k → ∀ p ∈ o.patterns, ∀ q ∈ o.patterns,
      ext.reMatch p.2.1 k = true → ext.reMatch q.2.1 k = true → p = q) {σ τ : Sched} {v : GoVal} (hv : Tidy v)
    (h : (objectV ext (o.map f) σ v).1 = .ok) (e : Err) : (objectV ext (o.map f) τ v).1 ≠ .err e := by
  rcases tidy_object hv with ⟨kvs, raws, hobj, hk, hr⟩ | ⟨t, ht⟩ | ⟨s, hs⟩
  · intro he
    have hch : ∀ (φ : Sem → Sem) (d : Sem), (o.map (fun c => φ (f c))).Child d → ∃ c, o.Child c ∧ φ (f c) = d :=
      fun φ d hd => (ObjC.map_child _ o).1 hd
    have hrules := objectV_rules ext (o.map f) σ hobj ((ObjC.map_wf _ o).2 hw)
      (fun d hd => by obtain ⟨c, h1, rfl⟩ := (ObjC.map_child _ o).1 hd; exact (hc c h1).ro)
      (fun p d hd _ => by obtain ⟨c, h1, rfl⟩ := (ObjC.map_mem_props _ o).1 hd; exact (hc c (.prop h1)).dflt)
      (by
        intro k _ hkd p hp q hq hp' hq'
        simp only [ObjC.map, List.mem_map] at hp hq
        obtain ⟨p, hp, rfl⟩ := hp
        obtain ⟨q, hq, rfl⟩ := hq
        rw [hov k (fun h' => hkd ((ObjC.map_declares _ o).2 h')) p hp q hq hp' hq']) h
    rw [map_objRules] at hrules
    have hrules' : ObjRules ext (o.map (fun c => unabort (f c))) (fun c x => c.Accepts x) v kvs raws := by
      rw [map_objRules]
      refine hrules.imp ext (fun c x hcc hx hacc => ?_)
      obtain ⟨ρ, hρ⟩ := hacc
      refine unabort_accepts (hc c hcc).compat ?_ hρ
      rcases hx with ⟨k, hx⟩ | ⟨k, hx⟩ | rfl
      · exact hk k x hx
      · exact hr k x hx
      · exact hv
    have hok := objectV_of_rules ext (o.map (fun c => unabort (f c))) τ hobj ((ObjC.map_wf _ o).2 hw)
      (fun d hd => by obtain ⟨c, h1, rfl⟩ := (ObjC.map_child _ o).1 hd; exact unabort_readOnly (hc c h1).ro)
      (fun p d hd _ => by
        obtain ⟨c, h1, rfl⟩ := (ObjC.map_mem_props _ o).1 hd
        unfold unabort
        have := (hc c (.prop h1)).dflt
        cases hdc : (f c).dflt with
        | none => rfl
        | abort a => rfl
        | some dv => exact absurd hdc (this dv)) hrules'
    rw [objectV_below (A := fun _ => True) (f := f) o (fun c _ => below_unabort (f c)) τ v
      (by rw [he]; exact Res.off_err), he] at hok
    cases hok
  · exact objectV_time (fun p d hd => by
      obtain ⟨c, h1, rfl⟩ := (ObjC.map_mem_props _ o).1 hd; exact (hc c (.prop h1)).dflt) ht h e
  · unfold objectV at h ⊢
    simp only [hs] at h ⊢
    rw [h]; simp

/-! ## Trees -/

/-- Default-free constraints with disjoint patterns. -/
def Orderly (ext : Ext) (c : Constraint) : Prop := NoDefault c ∧ DisjointPatterns ext c

theorem steady_sem {ext : Ext} {env : Env} (henv : env.Every (Orderly ext)) {c : Constraint} (hc : c.Every (Orderly ext))
    (fuel : Nat) : Steady (sem ext env fuel c) := by
  have hro : ∀ {fuel : Nat} {c : Constraint}, c.Every (Orderly ext) → (readOnlyPolicy ext).Good (sem ext env fuel c) := by
    intro fuel c hc
    have hl : ∀ c, Orderly ext c → (readOnlyPolicy ext).Local c := fun c h =>
      local_of_true _ (fun _ => trivial) (fun dv hd => by rw [h.1] at hd; cases hd)
    exact Policy.good_sem (readOnlyPolicy ext) rfl trivial (henv.imp hl) (hc.imp hl) fuel
  have hgood : ∀ s : Sem, (readOnlyPolicy ext).Good s → s.ReadOnly ∧ ∀ dv, s.dflt ≠ .some dv := by
    intro s h
    exact ⟨fun v σ => (h.val σ v trivial).2.1, fun dv hd => h.dflt dv hd⟩
  suffices h : (readOnlyPolicy ext).Good (sem ext env fuel c) ∧ Compat (sem ext env fuel c) from
    ⟨(hgood _ h.1).1, (hgood _ h.1).2, h.2⟩
  refine sem_induct (fun s => (readOnlyPolicy ext).Good s ∧ Compat s) (Orderly ext) ?_ ?_ ?_ henv fuel c hc
  · intro ρ c hρ hl hch
    have hgood1 : (readOnlyPolicy ext).Good (denote ext ρ c) :=
      Policy.good_step (readOnlyPolicy ext) rfl ρ c (fun m n => (hρ m n).1)
        (local_of_true _ (fun _ => trivial) (fun dv hd => by rw [hl.1] at hd; cases hd)) (fun d hd => (hch d hd).1)
    refine ⟨hgood1, ?_⟩
    have hst : ∀ d, c.Child d → Steady (denote ext ρ d) := fun d hd =>
      ⟨(hgood _ (hch d hd).1).1, (hgood _ (hch d hd).1).2, (hch d hd).2⟩
    have hlist : ∀ cs : List Constraint, (∀ d ∈ cs, c.Child d) → ∀ s ∈ cs.map (denote ext ρ), Steady s := by
      intro cs h s hs
      obtain ⟨d, hd, rfl⟩ := List.mem_map.1 hs
      exact hst d (h d hd)
    cases c with
    | array a =>
      intro v hv σ τ h e
      rw [denote_array] at h ⊢
      refine arrayV_compat (fun s hs => ?_) hv h e
      cases hs with
      | items hi =>
        simp only [ArrC.map, Option.map_eq_some_iff] at hi
        obtain ⟨d, hd, rfl⟩ := hi
        exact hst d (.array (.items hd))
      | positional hi =>
        simp only [ArrC.map, List.mem_map] at hi
        obtain ⟨d, hd, rfl⟩ := hi
        exact hst d (.array (.positional hd))
      | additional hi =>
        simp only [ArrC.map, Option.map_eq_some_iff] at hi
        obtain ⟨d, hd, rfl⟩ := hi
        exact hst d (.array (.additional hd))
    | object o =>
      intro v hv σ τ h e
      rw [denote_object] at h ⊢
      exact objectV_compat o hl.2.1 (fun d hd => hst d (.object hd)) hl.2.2 hv h e
    | any cs =>
      intro v hv σ τ h e
      rw [denote_any] at h ⊢
      exact anyLoop_compat hv _ 0 (hlist cs fun d hd => .any hd) h e
    | all cs =>
      intro v hv σ τ h e
      rw [denote_all] at h ⊢
      exact allLoop_compat hv _ 0 (hlist cs fun d hd => .all hd) h e
    | oneOf cs =>
      intro v hv σ τ h e
      rw [denote_oneOf] at h ⊢
      exact oneOfLoop_compat hv _ 0 0 (hlist cs fun d hd => .oneOf hd) h e
    | not c =>
      intro v hv σ τ h e
      rw [denote_not] at h ⊢
      refine notV_compat hv _ (fun s hs => ?_) h e
      simp only [Option.map_eq_some_iff] at hs
      obtain ⟨d, hd, rfl⟩ := hs
      subst hd
      exact hst d .not
    | ref m n => simp only [denote]; exact (hρ m n).2
    | empty => simp only [denote]; intro v _ σ τ _ e; simp
    | _ => simp only [denote]; exact compat_pure
  · refine ⟨⟨fun dv h => by simp [running] at h, fun a _ => trivial, fun σ v _ => ⟨trivial, rfl, fun _ _ => trivial⟩⟩,
      fun v _ σ τ h => by simp [running] at h⟩
  · intro n
    refine ⟨⟨fun dv h => by simp [unresolved] at h, fun a _ => trivial, fun σ v _ => ⟨trivial, rfl, fun _ _ => trivial⟩⟩,
      fun v _ σ τ h => by simp [unresolved] at h⟩

end Jsval
