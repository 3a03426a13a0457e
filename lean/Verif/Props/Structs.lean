import Verif.Props.Maybes
import Verif.Props.Objects
import Verif.Lemmas.Embed
import Verif.Lemmas.Registry
import Verif.Lemmas.StructEnd
import Verif.Spec.Struct
/-!
# Properties of structs (C56–C60)
-/
namespace Jsval

/-! ## C56 -/

/-- An exported field with a Go name and a json tag. -/
abbrev fld (n tag : GoStr) : Field := ⟨n, tag, true, false⟩

/-- `struct { A MaybeInt `json:"a,omitempty"`; B string; Base; hidden int; C bool `json:"-"` }` with
`type Base struct { A string `json:"a"`; D MaybeString `json:"d"` }`. -/
def exEmb : List (Field × GoVal) :=
  [(fld (b! "A") (b! "a,omitempty"), .maybe true (.int 1)),
   (fld (b! "B") [], .str (b! "x")),
   (⟨b! "Base", [], true, true⟩, .struct [(fld (b! "E") (b! "a"), .str (b! "inner")),
      (fld (b! "D") (b! "d"), .maybe false (.str []))]),
   (⟨b! "hidden", [], false, false⟩, .int .int 3),
   (fld (b! "C") (b! "-"), .bool true)]

/-- C56: the names under which `extract` records fields, for every struct type: name `k` is recorded exactly when some
field is visible under it, embedded structs counting as if their fields stood in their place; it then stands for the
last such field. -/
theorem C56_names {fs : List (Field × GoVal)} {props : List (GoStr × PropInfo)} (h : extract fs = some props) (k : GoStr)
    (info : PropInfo) :
    alookup k props = some info ↔
      ∃ f v, Designates fs k f v ∧ info.fieldName = f.name ∧ (info.isMaybe = true ↔ HoldsMaybe v) := by
  obtain ⟨props', h1, -, h3⟩ := extract_emb (extract_isSome.1 ⟨props, h⟩)
  rw [h] at h1
  cases h1
  rw [h3]
  constructor
  · intro hk
    obtain ⟨⟨n, v⟩, e1, rfl⟩ := Option.map_eq_some_iff.1 hk
    obtain ⟨f, hd, rfl⟩ := designates_iff.1 e1
    exact ⟨f, v, hd, rfl, holdsMaybe_iff⟩
  · rintro ⟨f, v, hd, e1, e2⟩
    rw [designates_iff.2 ⟨f, hd, rfl⟩]
    obtain ⟨n, mb⟩ := info
    simp only at e1 e2
    subst e1
    simp only [Option.map_some, Option.some.injEq, PropInfo.mk.injEq, true_and]
    rw [← holdsMaybe_iff] at e2
    exact Bool.eq_iff_iff.2 e2.symm

/-- C56: every field is visible under exactly the name its tag gives it, unless a later field takes that name. -/
theorem C56_visible {fs : List (Field × GoVal)} {props : List (GoStr × PropInfo)} (h : extract fs = some props) (k : GoStr) :
    (∃ info, alookup k props = some info) ↔ ∃ p ∈ unembed fs, jsonNameSpec p.1 = some k := by
  obtain ⟨props', h1, -, h3⟩ := extract_emb (extract_isSome.1 ⟨props, h⟩)
  rw [h] at h1
  cases h1
  rw [h3]
  constructor
  · rintro ⟨info, hi⟩
    by_contra hc
    push Not at hc
    rw [fieldVal_none.2 hc] at hi
    cases hi
  · rintro ⟨p, hp, hn⟩
    cases hf : fieldVal k (unembed fs) with
    | none => exact absurd hn (fieldVal_none.1 hf p hp)
    | some nv => exact ⟨_, rfl⟩

/-- C56: inspecting a struct type works exactly when everything embedded is a struct; embedding a pointer to a struct,
or any named non-struct type, panics. -/
theorem C56_panics (fs : List (Field × GoVal)) : extract fs = none ↔ ¬ EmbedsStructs fs := by
  rw [← extract_isSome]
  cases extract fs <;> simp

/-- the running example: `a` stands for the embedded field, `d` is found inside `Base` -/
example : extract exEmb = some [(b! "a", ⟨b! "E", false⟩), (b! "B", ⟨b! "B", false⟩), (b! "d", ⟨b! "D", true⟩)] := by decide

/-- an embedded `*Base` -/
example : extract [(⟨b! "Base", [], true, true⟩, .ptr (some (.struct [])))] = none := by decide

/-! ## C57 -/

/-- `struct { X MaybeInt `json:"-"`; Base }` with `type Base struct { X MaybeInt `json:"x"` }`: the outer `X` is set,
the embedded one is not. -/
def exShadow : List (Field × GoVal) :=
  [(fld (b! "X") (b! "-"), .maybe true (.int 1)),
   (⟨b! "Base", [], true, true⟩, .struct [(fld (b! "X") (b! "x"), .maybe false (.int 0))])]

/-- C57 fails when Go's field lookup finds another field of the same Go name: here property `x` is reported although
its field is an unset Maybe. -/
theorem C57_refuted : ¬ ∀ (fs : List (Field × GoVal)) (names : List GoStr), structPropNames fs = .ok names →
    ∀ k, k ∈ names ↔ ∃ f v, Designates fs k f v ∧ fieldContent v ≠ none := by
  intro h
  obtain ⟨f, v, ⟨pre, post, h1, h2, -⟩, h3⟩ := (h exShadow [b! "x"] (by decide) (b! "x")).1 (by simp)
  have hu : unembed exShadow = [(fld (b! "X") (b! "-"), .maybe true (.int 1)), (fld (b! "X") (b! "x"), .maybe false (.int 0))] := rfl
  have hm : (f, v) ∈ unembed exShadow := by rw [h1]; simp
  rw [hu] at hm
  simp only [List.mem_cons, Prod.mk.injEq, List.not_mem_nil, or_false] at hm
  rcases hm with ⟨rfl, rfl⟩ | ⟨rfl, rfl⟩
  · revert h2; decide
  · exact h3 rfl

/-- C57, for structs in which no field hides another of the same Go name: `PropNames` returns each visible name whose
field is not an unset Maybe, exactly once, and nothing else. Missing: shadowed fields, where it is false. -/
theorem C57_names_partial {fs : List (Field × GoVal)} (he : EmbedsStructs fs) (hs : NoShadowing fs) :
    ∃ names, structPropNames fs = .ok names ∧ names.Nodup ∧
      ∀ k, k ∈ names ↔ ∃ f v, Designates fs k f v ∧ fieldContent v ≠ none :=
  structPropNames_emb he hs

/-- C57: the value found for a name is that of the field it designates, again when no field is shadowed. -/
theorem C57_value_partial {fs : List (Field × GoVal)} (he : EmbedsStructs fs) (hs : NoShadowing fs) (k : GoStr) (v : GoVal) :
    getProp (some (.struct fs)) k = .ok (some v) ↔ ∃ f, Designates fs k f v :=
  getProp_emb he hs k v

/-- with shadowing, the value found is another field's -/
example : getProp (some (.struct exShadow)) (b! "x") = .ok (some (.maybe true (.int 1))) := rfl

theorem exEmb_noShadowing : NoShadowing exEmb := by unfold NoShadowing; decide

theorem exEmb_embeds : EmbedsStructs exEmb := extract_isSome.1 ⟨_, rfl⟩

example : structPropNames exEmb = .ok [b! "a", b! "B"] := rfl

/-! ## C58 -/

section registry
variable {T I : Type} {ex : T → Option I}

/-- C58: whatever the interleaving, every info that `Lookup` or `Register` returns for a type is the one `extract`
computes for it. -/
theorem C58_extracted {es : List (GEvent T I)} {s : GState T I} (hr : GRun ex GState.init es s) :
    (∀ th t i, GEvent.looked th t (some i) ∈ es → ex t = some i) ∧
    (∀ th t i, GEvent.registered th t i ∈ es → ex t = some i) ∧
    (∀ th t, GEvent.panicked th t ∈ es → ex t = none) := by
  generalize hs0 : (GState.init : GState T I) = s0 at hr
  have hi0 : GInv ex s0 := hs0 ▸ gInv_init
  clear hs0
  induction hr with
  | nil => simp
  | @snoc es s' e s'' hr hs ih =>
    have hi := gInv_run hi0 hr
    refine ⟨fun th t i h => ?_, fun th t i h => ?_, fun th t h => ?_⟩ <;>
      rcases List.mem_append.1 h with h | h
    · exact ih.1 th t i h
    · simp only [List.mem_singleton] at h
      subst h
      cases hs with
      | lUnlock hp => exact hi.car th t i (by rw [hp]; rfl)
    · exact ih.2.1 th t i h
    · simp only [List.mem_singleton] at h
      subst h
      cases hs with
      | rHit hp => exact hi.car th t i (by rw [hp]; rfl)
      | wUnlock hp => exact hi.car th t i (by rw [hp]; rfl)
    · exact ih.2.2 th t h
    · simp only [List.mem_singleton] at h
      subst h
      cases hs with
      | rPanic _ he => exact he

theorem reg_step_mono {s s' : GState T I} {e : GEvent T I} (hi : GInv ex s) (hs : GStep ex s e s') (t : T) (i : I)
    (h : s.reg t = some i) : s'.reg t = some i := by
  have hx := hi.reg t i h
  cases hs with
  | @wWrite th0 t0 i0 hp =>
    have := hi.car th0 t0 i0 (by rw [hp]; rfl)
    simp only [regSet]
    split
    · rename_i e; subst e; rw [hx] at this; exact this.symm ▸ rfl
    · exact h
  | _ => exact h

/-- C58: a `Lookup` that starts after some `Register` of its type has returned finds the info. -/
theorem C58_found {es1 es2 : List (GEvent T I)} {s1 s2 s3 : GState T I} {th th' : Nat} {t : T} {i : I} {out : Option I}
    (hr1 : GRun ex GState.init es1 s1) (hreg : GEvent.registered th t i ∈ es1)
    (hb : GStep ex s1 (.beginLookup th' t) s2) (hr2 : GRun ex s2 es2 s3) (hno : ∀ e ∈ es2, ∀ o, e ≠ .looked th' t o)
    {s4 : GState T I} (hret : GStep ex s3 (.looked th' t out) s4) : out = some i := by
  have hi1 := gInv_run gInv_init hr1
  -- the info stays in the registry
  have hstored : ∀ {es : List (GEvent T I)} {s : GState T I}, GRun ex GState.init es s →
      ∀ th t i, GEvent.registered th t i ∈ es → s.reg t = some i := by
    intro es s hr
    generalize hs0 : (GState.init : GState T I) = s0 at hr
    have hi0 : GInv ex s0 := hs0 ▸ gInv_init
    clear hs0
    induction hr with
    | nil => simp
    | @snoc es s' e s'' hr hs ih =>
      have hi := gInv_run hi0 hr
      intro th t i h
      rcases List.mem_append.1 h with h | h
      · exact reg_step_mono hi hs t i (ih th t i h)
      · simp only [List.mem_singleton] at h
        subst h
        cases hs with
        | rHit hp => exact hi.hit th t i hp
        | wUnlock hp => exact hi.done th t i hp
  have hreg1 := hstored hr1 th t i hreg
  have key : s3.reg t = some i ∧ GInv ex s3 ∧ (s3.pc th' = .lWant t ∨ s3.pc th' = .lHave t ∨ s3.pc th' = .lRel t (some i)) := by
    have h2 : s2.reg t = some i ∧ GInv ex s2 ∧ s2.pc th' = .lWant t := by
      refine ⟨reg_step_mono hi1 hb t i hreg1, gInv_step hi1 hb, ?_⟩
      cases hb with
      | beginLookup _ _ => simp [upd]
    clear hret
    induction hr2 with
    | nil => exact ⟨h2.1, h2.2.1, Or.inl h2.2.2⟩
    | @snoc es s' e s'' hr hs ih =>
      obtain ⟨g1, g2, g3⟩ := ih (fun e he => hno e (List.mem_append_left _ he))
      refine ⟨reg_step_mono g2 hs t i g1, gInv_step g2 hs, ?_⟩
      have hne := hno e (by simp)
      cases hs with
      | lUnlock hp =>
        rename_i th0 t0 out0
        by_cases h0 : th0 = th'
        · subst h0
          rcases g3 with g3 | g3 | g3 <;> rw [hp] at g3 <;> cases g3
          exact absurd rfl (hne _)
        · simpa [upd, Ne.symm h0] using g3
      | _ => grind [upd]
  obtain ⟨g1, g2, g3⟩ := key
  cases hret with
  | lUnlock hp =>
    rcases g3 with g3 | g3 | g3 <;> rw [hp] at g3 <;> cases g3
    rfl

/-- C58: the lock does its job: nobody is about to read or write the table while somebody else is about to write it. -/
theorem C58_no_race {es : List (GEvent T I)} {s : GState T I} (hr : GRun ex GState.init es s) {th th' : Nat} {t t' : T}
    {i : I} (hw : s.pc th = .wHave t i) :
    (s.pc th' = .lHave t' ∨ s.pc th' = .rHave t' ∨ ∃ i', s.pc th' = .wHave t' i') → th' = th := by
  have hi := gInv_run gInv_init hr
  have hx := hi.excl th th' (by rw [hw]; rfl)
  rw [hi.rd] at hx
  rintro (h | h | ⟨i', h⟩)
  · rw [h] at hx; cases hx
  · rw [h] at hx; cases hx
  · have a := (hi.wr th).2 (by rw [hw]; rfl)
    have b := (hi.wr th').2 (by rw [h]; rfl)
    rw [a] at b
    cases b; rfl

/-- C58: no deadlock: as long as some call is in progress, some call can proceed. -/
theorem C58_progress {es : List (GEvent T I)} {s : GState T I} (hr : GRun ex GState.init es s)
    (hbusy : ∃ th, s.pc th ≠ .idle) :
    ∃ e s', GStep ex s e s' ∧ (∀ th t, e ≠ .beginLookup th t) ∧ ∀ th t, e ≠ .beginRegister th t := by
  have hi := gInv_run gInv_init hr
  -- somebody holding the lock for reading can always go on
  have hread : ∀ th, s.readers th = true → ∃ e s', GStep ex s e s' ∧ (∀ th t, e ≠ .beginLookup th t) ∧
      ∀ th t, e ≠ .beginRegister th t := by
    intro th h
    rw [hi.rd] at h
    cases hp : s.pc th with
    | lHave t => exact ⟨_, _, .lRead hp, by simp, by simp⟩
    | lRel t out => exact ⟨_, _, .lUnlock hp, by simp, by simp⟩
    | rHave t => exact ⟨_, _, .rRead hp, by simp, by simp⟩
    | rRel t out =>
      cases out with
      | none => exact ⟨_, _, .rMiss hp, by simp, by simp⟩
      | some i => exact ⟨_, _, .rHit hp, by simp, by simp⟩
    | _ => rw [hp] at h; cases h
  cases hw : s.writer with
  | some th =>
    have h := (hi.wr th).1 hw
    cases hp : s.pc th with
    | wHave t i => exact ⟨_, _, .wWrite hp, by simp, by simp⟩
    | wRel t i => exact ⟨_, _, .wUnlock hp, by simp, by simp⟩
    | wWait t i =>
      by_cases hall : ∀ th', s.readers th' = false
      · exact ⟨_, _, .wLock hp hall, by simp, by simp⟩
      · push Not at hall
        obtain ⟨th', h'⟩ := hall
        exact hread th' (by simpa using h')
    | _ => rw [hp] at h; cases h
  | none =>
    obtain ⟨th, hb⟩ := hbusy
    cases hp : s.pc th with
    | idle => exact absurd hp hb
    | lWant t => exact ⟨_, _, .lLock hp hw, by simp, by simp⟩
    | rWant t => exact ⟨_, _, .rLock hp hw, by simp, by simp⟩
    | rExtract t =>
      cases he : ex t with
      | none => exact ⟨_, _, .rPanic hp he, by simp, by simp⟩
      | some i => exact ⟨_, _, .rExtract hp he, by simp, by simp⟩
    | wWant t i => exact ⟨_, _, .wAnnounce hp hw, by simp, by simp⟩
    | lHave t => exact hread th (by rw [hi.rd, hp]; rfl)
    | lRel t out => exact hread th (by rw [hi.rd, hp]; rfl)
    | rHave t => exact hread th (by rw [hi.rd, hp]; rfl)
    | rRel t out => exact hread th (by rw [hi.rd, hp]; rfl)
    | wWait t i => exact absurd ((hi.wr th).2 (by rw [hp]; rfl)) (by rw [hw]; simp)
    | wHave t i => exact absurd ((hi.wr th).2 (by rw [hp]; rfl)) (by rw [hw]; simp)
    | wRel t i => exact absurd ((hi.wr th).2 (by rw [hp]; rfl)) (by rw [hw]; simp)

/-- C58: when no call is in progress the lock is free, also after a panic in `extract`. -/
theorem C58_released {es : List (GEvent T I)} {s : GState T I} (hr : GRun ex GState.init es s)
    (hidle : ∀ th, s.pc th = .idle) : s.writer = none ∧ ∀ th, s.readers th = false := by
  have hi := gInv_run gInv_init hr
  refine ⟨?_, fun th => by rw [hi.rd, hidle]; rfl⟩
  cases hw : s.writer with
  | none => rfl
  | some th => have := (hi.wr th).1 hw; rw [hidle] at this; cases this

end registry

/-- Two goroutines register type 0 at the same time, then one looks it up. -/
example : ∃ s, GRun (fun t : Nat => if t = 0 then some (b! "info") else none) GState.init
    [.beginRegister 1 0, .internal 1, .internal 1, .internal 1, .beginRegister 2 0, .internal 2, .internal 2, .internal 2,
      .internal 1, .internal 1, .internal 1, .internal 1, .registered 1 0 (b! "info"), .beginLookup 1 0, .internal 1,
      .internal 1, .looked 1 0 (some (b! "info"))] s := by
  have h := (GRun.nil (ex := fun t : Nat => if t = 0 then some (b! "info") else none) GState.init)
    |>.snoc (.beginRegister (th := 1) 0 rfl)
    |>.snoc (.rLock (th := 1) (t := 0) rfl rfl)
    |>.snoc (.rRead (th := 1) (t := 0) rfl)
    |>.snoc (.rMiss (th := 1) (t := 0) rfl)
    |>.snoc (.beginRegister (th := 2) 0 rfl)
    |>.snoc (.rLock (th := 2) (t := 0) rfl rfl)
    |>.snoc (.rRead (th := 2) (t := 0) rfl)
    |>.snoc (.rMiss (th := 2) (t := 0) rfl)
    |>.snoc (.rExtract (th := 1) (t := 0) rfl rfl)
    |>.snoc (.wAnnounce (th := 1) (t := 0) rfl rfl)
    |>.snoc (.wLock (th := 1) (t := 0) rfl (by intro th'; by_cases h1 : th' = 1 <;> by_cases h2 : th' = 2 <;> simp [upd, GState.init, h1, h2]))
    |>.snoc (.wWrite (th := 1) (t := 0) rfl)
    |>.snoc (.wUnlock (th := 1) (t := 0) rfl)
    |>.snoc (.beginLookup (th := 1) 0 rfl)
    |>.snoc (.lLock (th := 1) (t := 0) rfl rfl)
    |>.snoc (.lRead (th := 1) (t := 0) rfl)
    |>.snoc (.lUnlock (th := 1) (t := 0) (by simp [upd, regSet]; rfl))
  exact ⟨_, h⟩

/-! ## C59 -/

theorem coerce_settable (ext : Ext) (k : MaybeKind) (dv : GoVal) :
    (∃ dv', coerce k dv = some dv' ∧ Settable ext k dv') ↔ Settable ext k dv ∨ TakesNumber k dv := by
  constructor
  · rintro ⟨dv', h, hs⟩
    unfold coerce at h
    split at h
    · cases h
    · exact Or.inr (.floatInt _ _)
    · exact Or.inr (.floatUint _ _)
    · exact Or.inl (.float _ _)
    · exact Or.inl (.int _ _)
    · exact Or.inr (.intUint _ _)
    · rename_i fk f
      cases fk
      · exact Or.inr (.intFloat32 _)
      · exact Or.inl (.intOfFloat _)
    · simp only [Option.some.injEq] at h
      subst h
      exact Or.inl hs
  · rintro (h | h)
    · have hid : ∀ k v, coerce k v = some v → Settable ext k v → ∃ dv', coerce k v = some dv' ∧ Settable ext k dv' :=
        fun k v h h' => ⟨v, h, h'⟩
      cases h with
      | bool b => exact hid _ _ rfl (.bool b)
      | float fk f => exact ⟨_, rfl, .float .f64 f⟩
      | int ik n => exact ⟨_, rfl, .int .int64 n⟩
      | intOfFloat f => exact ⟨_, rfl, .int .int64 _⟩
      | str s => exact hid _ _ rfl (.str s)
      | timeOfStr s t h => exact hid _ _ rfl (.timeOfStr s t h)
      | time t => exact hid _ _ rfl (.time t)
      | uint uk n h => exact hid _ _ rfl (.uint uk n h)
      | uintOfFloat f => exact hid _ _ rfl (.uintOfFloat f)
    · cases h with
      | floatInt k n => exact ⟨_, rfl, .float .f64 _⟩
      | floatUint k n => exact ⟨_, rfl, .float .f64 _⟩
      | intUint k n => exact ⟨_, rfl, .int .int64 _⟩
      | intFloat32 f => exact ⟨_, rfl, .int .int64 _⟩

theorem stored_ptr (ext : Ext) (b w : Bool) (m : MaybeVal) {dv : GoVal} (h : dv ≠ .nil) :
    stored ext b (.ptr (some (.maybe w m))) dv =
      match (MaybeSt.mk w m).Set ext dv with
      | (none, m') => .ok (.ptr (some (.maybe m'.valid m'.p)))
      | (some e, _) => .error (.err e) := by
  cases dv <;> first | exact absurd rfl h | rfl

theorem settable_ne_nil {ext : Ext} {k : MaybeKind} {dv : GoVal} (h : Settable ext k dv) : dv ≠ .nil := by
  cases h <;> simp

theorem stored_iff (ext : Ext) (fv dv : GoVal) : (∃ x, stored ext true fv dv = .ok x) ↔ TakesDefault ext fv dv := by
  constructor
  · rintro ⟨x, h⟩
    unfold stored at h
    split at h
    · rename_i w m
      cases hc : coerce m.kind dv with
      | none => rw [hc] at h; cases h
      | some dv' =>
        rw [hc] at h
        simp only [if_true] at h
        by_cases hs : Settable ext m.kind dv'
        · rcases (coerce_settable ext m.kind dv).1 ⟨dv', hc, hs⟩ with h' | h'
          · exact .set _ _ _ h'
          · exact .number _ _ _ h'
        · obtain ⟨e, he⟩ := C52_failure ext ⟨w, m⟩ dv' hs
          rw [he] at h
          cases h
    · rename_i w m
      by_cases hs : Settable ext m.kind dv
      · exact .ptr _ _ _ hs
      · obtain ⟨e, he⟩ := C52_failure ext ⟨w, m⟩ dv hs
        cases dv <;> simp only [he] at h <;> cases h
    · cases h
  · intro h
    have hval : ∀ w m, Settable ext m.kind dv ∨ TakesNumber m.kind dv → ∃ x, stored ext true (.maybe w m) dv = .ok x := by
      intro w m h
      obtain ⟨dv', h1, h2⟩ := (coerce_settable ext m.kind dv).2 h
      obtain ⟨m', h3, -⟩ := C52_valid ext ⟨w, m⟩ dv' h2
      exact ⟨_, by simp only [stored, h1, h3, if_true]; rfl⟩
    cases h with
    | set w m _ h => exact hval w m (Or.inl h)
    | number w m _ h => exact hval w m (Or.inr h)
    | ptr w m _ h =>
      obtain ⟨m', h1, -⟩ := C52_valid ext ⟨w, m⟩ dv h
      exact ⟨_, by rw [stored_ptr ext true w m (settable_ne_nil h), h1]⟩

/-- The default of an absent property can be stored exactly when its field takes it. -/
theorem canSet_struct (ext : Ext) {fs : List (Field × GoVal)} (hfs : FlatStruct fs) (p : GoStr) (dv : GoVal) :
    CanSet ext true (.struct fs) p dv ↔ ∃ f v, (f, v) ∈ fs ∧ jsonNameSpec f = some p ∧ TakesDefault ext v dv := by
  unfold CanSet
  cases hv : fieldVal p fs with
  | none =>
    have hno : ∀ f v, (f, v) ∈ fs → jsonNameSpec f ≠ some p := by
      intro f v h1 h2
      have := (fieldVal_spec hfs (k := p) (n := f.name) (v := v)).2 ⟨f, h1, rfl, h2⟩
      rw [hv] at this; cases this
    have hs : setPropAt ext true (.struct fs) p dv = .error (.err (.noField p)) := by
      simp only [setPropAt, setPropStruct_flat ext true hfs.flat, fieldVal_eq hfs.flat, hv]
      rfl
    rw [hs]
    constructor
    · rintro ⟨t', h⟩; cases h
    · rintro ⟨f, v, h1, h2, -⟩; exact absurd h2 (hno f v h1)
  | some nv =>
    obtain ⟨n, v⟩ := nv
    have hg : getProp (some (.struct fs)) p = .ok (some v) := by rw [getProp_fieldVal hfs.flat, hv]; rfl
    obtain ⟨fn, -, hset⟩ := setPropAt_stored ext true hfs.flat hg dv
    rw [hset]
    obtain ⟨f, g1, g2, g3⟩ := (fieldVal_spec hfs).1 hv
    have : (∃ t', (stored ext true v dv).map (fun x => GoVal.struct (setF fn x fs)) = .ok t') ↔
        ∃ x, stored ext true v dv = .ok x := by
      cases stored ext true v dv <;> simp [Except.map]
    rw [this, stored_iff]
    constructor
    · intro h; exact ⟨f, v, g1, g3, h⟩
    · rintro ⟨f', v', a1, a2, a3⟩
      have := (fieldVal_spec hfs (k := p) (n := f'.name) (v := v')).2 ⟨f', a1, rfl, a2⟩
      rw [hv] at this
      cases this
      exact a3

/-- C59 fails when a declared property without a field has a default: a map gets the property, a struct has nowhere to
put it. -/
theorem C59_refuted :
    ¬ ∀ (ext : Ext) (ρ : RefSem) (σ : Sched) (o : ObjC Constraint) (fs : List (Field × GoVal)), o.Wf → FlatStruct fs →
      (∀ k, Has (structProps fs) k → o.Declares k) →
      ((denote ext ρ (.object o)).AcceptsBy σ (.ptr (some (.struct fs))) ↔
        (denote ext ρ (.object o)).AcceptsBy σ (.map false (structProps fs))) := by
  intro h
  have := h demoExt (refSem demoExt env0 0) sched0 (Object'.AddProp (b! "a") (.string (String'.Default (.str (b! "d"))))) []
    ⟨by decide⟩ ⟨by simp, by simp, by simp⟩ (by rintro k ⟨x, hx⟩; cases hx)
  revert this
  unfold Sem.AcceptsBy
  decide

section
variable (ext : Ext) (ρ : RefSem)

/-- C59, order by order: for a flat struct passed by pointer all of whose properties are declared, validation accepts
exactly when it accepts the map of the present properties. Missing: defaults that the field does not take (or that have
no field), where it is false; and schema dependencies, which are shown the struct itself rather than the map. -/
theorem C59_same_verdict_partial (σ : Sched) (o : ObjC Constraint) (hw : o.Wf) {fs : List (Field × GoVal)}
    (hfs : FlatStruct fs) (hall : ∀ k, Has (structProps fs) k → o.Declares k) (hsd : o.schemadeps = [])
    (hdf : ∀ p c dv, (p, c) ∈ o.props → ¬ Has (structProps fs) p → (denote ext ρ c).dflt = .some dv →
      ∃ f v, (f, v) ∈ fs ∧ jsonNameSpec f = some p ∧ TakesDefault ext v dv) :
    (denote ext ρ (.object o)).AcceptsBy σ (.ptr (some (.struct fs))) ↔
      (denote ext ρ (.object o)).AcceptsBy σ (.map false (structProps fs)) := by
  unfold Sem.AcceptsBy
  rw [denote_object]
  have hall' : ∀ k, Has (structProps fs) k → (o.map (denote ext ρ)).Declares k :=
    fun k hk => (ObjC.map_declares _ o).2 (hall k hk)
  have hsd' : ∀ k, (o.map (denote ext ρ)).GetSchemaDependency k = none := by
    intro k; rw [ObjC.map_schemaDep]; simp [ObjC.GetSchemaDependency, hsd, alookup]
  have hA := objAcc_struct true hfs
  have hB := objAcc_map false false (structProps_keys hfs)
  have e1 := (objectV_declared ext _ σ hA ((ObjC.map_wf (denote ext ρ) o).2 hw) hall' hsd').1
  have e2 := (objectV_declared ext _ σ hB ((ObjC.map_wf (denote ext ρ) o).2 hw) hall' hsd').1
  simp only [wrap] at e1 e2
  rw [e1, e2]
  refine and_congr Iff.rfl (and_congr ?_ Iff.rfl)
  refine forall_congr' fun j => forall_congr' fun p => forall_congr' fun c => imp_congr_right fun hj => ?_
  have hpc := mem_shuffle.1 (List.mem_of_getElem? hj)
  obtain ⟨c0, hc0, rfl⟩ := (ObjC.map_mem_props _ o).1 hpc
  unfold PropOk
  by_cases hp : Has (structProps fs) p
  · obtain ⟨x, hx⟩ := hp
    obtain ⟨s1, h1⟩ := (hA.view p x).2 hx
    obtain ⟨s2, h2⟩ := (hB.view p x).2 hx
    rw [h1, h2]
  · have habs : ∀ {v raws b t}, ObjAcc v (structProps fs) raws b t → viewProp (some t) p = .ok .absent := by
      intro v raws b t hO
      obtain ⟨pv, hv⟩ := viewProp_plain hO.plain p
      cases pv with
      | absent => exact hv
      | present x s => exact absurd ⟨x, (hO.view p x).1 ⟨s, hv⟩⟩ hp
    rw [habs hA, habs hB]
    refine and_congr Iff.rfl (or_congr Iff.rfl (exists_congr fun dv => and_congr_right fun hdv => ?_))
    rw [canSet_struct ext hfs, canSet_map]
    simp only [true_or, iff_true]
    exact hdf p c0 dv hc0 hp hdv

/-- C59: the verdict over all iteration orders. -/
theorem C59_all_orders_partial (o : ObjC Constraint) (hw : o.Wf) {fs : List (Field × GoVal)}
    (hfs : FlatStruct fs) (hall : ∀ k, Has (structProps fs) k → o.Declares k) (hsd : o.schemadeps = [])
    (hdf : ∀ p c dv, (p, c) ∈ o.props → ¬ Has (structProps fs) p → (denote ext ρ c).dflt = .some dv →
      ∃ f v, (f, v) ∈ fs ∧ jsonNameSpec f = some p ∧ TakesDefault ext v dv) :
    (denote ext ρ (.object o)).Accepts (.ptr (some (.struct fs))) ↔
      (denote ext ρ (.object o)).Accepts (.map false (structProps fs)) :=
  forall_congr' fun σ => C59_same_verdict_partial ext ρ σ o hw hfs hall hsd hdf

end

/-- `struct { A MaybeInt `json:"a"`; B string `json:"b"`; C *MaybeString `json:"c"` }` -/
def exFlat (a c : Bool) : List (Field × GoVal) :=
  [(fld (b! "A") (b! "a"), .maybe a (.int 5)), (fld (b! "B") (b! "b"), .str (b! "hey")),
   (fld (b! "C") (b! "c"), .ptr (some (.maybe c (.str (b! "z")))))]

theorem exFlat_flat (a c : Bool) : FlatStruct (exFlat a c) := by
  refine ⟨?_, ?_, ?_⟩
  rotate_left
  · show [b! "A", b! "B", b! "C"].Nodup
    decide
  · show [b! "a", b! "b", b! "c"].Nodup
    decide
  intro p hp
  simp only [exFlat, List.mem_cons, List.not_mem_nil, or_false] at hp
  rcases hp with rfl | rfl | rfl <;> rfl

/-- Three declared properties, two of them with defaults. -/
def exFlatObj : ObjC Constraint :=
  (((Object'.AddProp (b! "a") (.integer (Number'.Default (.int .int 7)))).AddProp (b! "b") (.string String')).AddProp
    (b! "c") (.string (String'.Default (.str (b! "d"))))).Required [b! "b"]

/-- the hypotheses of `C59_same_verdict_partial`, and both verdicts -/
example : exFlatObj.Wf ∧ exFlatObj.schemadeps = [] ∧
    TakesDefault demoExt (.maybe false (.int 5)) (.int .int 7) ∧
    TakesDefault demoExt (.ptr (some (.maybe false (.str (b! "z"))))) (.str (b! "d")) ∧
    (sem0 (.object exFlatObj)).AcceptsBy sched0 (.ptr (some (.struct (exFlat false false)))) ∧
    (sem0 (.object exFlatObj)).AcceptsBy sched0 (.map false [(b! "b", .str (b! "hey"))]) := by
  refine ⟨⟨by decide⟩, rfl, .set _ _ _ (.int _ _), .ptr _ _ _ (.str _), ?_, ?_⟩ <;> (unfold Sem.AcceptsBy; decide)

/-! ## C60 -/

section
variable (ext : Ext) (ρ : RefSem) (σ : Sched) (o : ObjC Constraint)

theorem field_get {fs : List (Field × GoVal)} (hfs : FlatStruct fs) {f : Field} {v : GoVal} {p : GoStr} (hf : (f, v) ∈ fs)
    (hn : jsonNameSpec f = some p) : getProp (some (.struct fs)) p = .ok (some v) := by
  rw [getProp_fieldVal hfs.flat, (fieldVal_spec hfs).2 ⟨f, hf, rfl, hn⟩]; rfl

/-- `AddProp` on a declared name, at the level of verdict functions. -/
theorem addProp_props (hw : o.Wf) {p : GoStr} {c d : Constraint} (hp : (p, c) ∈ o.props) :
    ((o.AddProp p d).map (denote ext ρ)).props = (o.map (denote ext ρ)).props.map (substProp p (denote ext ρ d)) := by
  have hwf := (ObjC.map_wf (denote ext ρ) o).2 hw
  have hpm : (p, denote ext ρ c) ∈ (o.map (denote ext ρ)).props := (ObjC.map_mem_props _ o).2 ⟨c, hp, rfl⟩
  rw [← ainsert_subst hwf.props hpm]
  simp only [ObjC.map, ObjC.AddProp]
  generalize o.props = l
  induction l with
  | nil => rfl
  | cons q l ih => simp only [ainsert, List.map_cons]; split <;> simp [*]

theorem substProp_key (p : GoStr) (d : Sem) : ((fun x : GoStr × Sem => x.1) ∘ substProp p d) = fun x => x.1 := by
  funext x
  simp only [Function.comp, substProp]
  split <;> simp_all

theorem addProp_wf (hw : o.Wf) {p : GoStr} {c d : Constraint} (hp : (p, c) ∈ o.props) :
    ((o.AddProp p d).map (denote ext ρ)).Wf := by
  refine ⟨?_⟩
  rw [addProp_props ext ρ o hw hp, List.map_map, substProp_key]
  exact ((ObjC.map_wf (denote ext ρ) o).2 hw).props

/-- What is stored for a default that fits: a valid Maybe holding the converted default. -/
theorem stored_fills {w : Bool} {m : MaybeVal} {dv y : GoVal} (h : FillsWith ext m.kind dv y) :
    ∃ m', stored ext true (.maybe w m) dv = .ok (.maybe true m') ∧ m'.toGo = y ∧ m'.kind = m.kind := by
  have key : ∀ dv', coerce m.kind dv = some dv' → Converts ext m.kind dv' y →
      ∃ m', stored ext true (.maybe w m) dv = .ok (.maybe true m') ∧ m'.toGo = y ∧ m'.kind = m.kind := by
    intro dv' h1 h2
    obtain ⟨⟨v', p'⟩, h3, h4, h5, h6⟩ := C52_round_trip ext ⟨w, m⟩ dv' y h2
    have : v' = true := h4
    subst this
    exact ⟨p', by simp only [stored, h1, h3, if_true], h5, h6⟩
  have trunc : ∀ {f : F64} {n : Int}, F64.Truncates f n → -(2 ^ 63) ≤ n → n < 2 ^ 63 → f.truncInt = n := by
    intro f n h h1 h2
    obtain ⟨neg, mag, rfl, -⟩ := id h
    simp only [F64.truncInt, truncates_signed h]
    rw [if_pos ⟨h1, h2⟩]
  generalize hk : m.kind = k at h key
  cases h with
  | conv _ _ _ h =>
    cases h with
    | bool b => exact key _ rfl (.bool b)
    | float fk f => exact key _ rfl (.float .f64 f)
    | int ik n => exact key _ rfl (.int .int64 n)
    | intOfFloat f n h h1 h2 => exact key (.int .int64 n) (by simp only [coerce, trunc h h1 h2]) (.int .int64 n)
    | str s => exact key _ rfl (.str s)
    | timeOfStr s t h => exact key _ rfl (.timeOfStr s t h)
    | time t => exact key _ rfl (.time t)
    | uint uk n h => exact key _ rfl (.uint uk n h)
    | uintOfFloat f n h h1 => exact key _ rfl (.uintOfFloat f n h h1)
  | floatInt k n => exact key _ rfl (.float .f64 _)
  | floatUint k n => exact key _ rfl (.float .f64 _)
  | intUint k n h => exact key (.int .int64 n) (by simp only [coerce, wrapInt64, if_pos h]) (.int .int64 n)
  | intFloat32 f n h h1 h2 => exact key (.int .int64 n) (by simp only [coerce, trunc h h1 h2]) (.int .int64 n)

end

end Jsval
