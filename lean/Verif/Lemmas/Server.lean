import Verif.Model.Server
import Mathlib.Algebra.Order.BigOperators.Group.Finset
/-!
# Invariants of the server machine
-/
namespace Jsval
variable {D : Type} {L : ServerLib D} {fuel : Nat}

/-- Between `Lock` and `Unlock`. -/
def SPc.critical : SPc → Bool
  | .held _ | .parse _ | .store _ _ | .rel _ _ => true
  | _ => false

/-- The request being served is for the index page. -/
def SPc.forIndex : SPc → Bool
  | .idle | .start _ => true
  | .want r | .held r | .parse r | .store r _ | .rel r _ | .page r _ => decide (r.path = b! "/")

/-- The template that the goroutine has got. -/
def SPc.got : SPc → Option Nat
  | .rel _ t | .page _ t => t
  | _ => none

/-- The goroutine was told that there are no templates. -/
def SPc.failed : SPc → Bool
  | .rel _ none | .page _ none => true
  | _ => false

/-- About to parse, or to store. -/
def SPc.empty : SPc → Bool
  | .parse _ | .store _ _ => true
  | _ => false

structure SInv (L : ServerLib D) (s : SState) : Prop where
  hold : ∀ th, s.holder = some th ↔ (s.pc th).critical = true
  index : ∀ th, (s.pc th).forIndex = true
  got : ∀ th t, (s.pc th).got = some t → s.templates = some t
  failed : ∀ th, (s.pc th).failed = true → L.parses = false
  empty : ∀ th, (s.pc th).empty = true → s.templates = none
  parses : ∀ th r t, s.pc th = .store r t → L.parses = true

theorem sInv_init : SInv L SState.init := by
  constructor <;> simp [SState.init, SPc.critical, SPc.forIndex, SPc.got, SPc.failed, SPc.empty]

theorem sInv_step {s s' : SState} {e : SEvent} (h : SInv L s) (hs : SStep L fuel s e s') : SInv L s' := by
  have hu : ∀ th th', (s.pc th).critical = true → (s.pc th').critical = true → th = th' := by
    intro th th' a b
    have a := (h.hold th).2 a
    rw [(h.hold th').2 b] at a
    cases a; rfl
  have hx : ∀ th, (s.pc th).empty = true → (s.pc th).critical = true := by
    intro th he
    cases hp : s.pc th <;> simp_all [SPc.empty, SPc.critical]
  obtain ⟨h1, h2, h3, h4, h5, h6⟩ := h
  cases hs with
  | @unlock th r t hp =>
    cases t <;> constructor <;> grind [upd, SPc.critical, SPc.forIndex, SPc.got, SPc.failed, SPc.empty]
  | _ => constructor <;> grind [upd, SPc.critical, SPc.forIndex, SPc.got, SPc.failed, SPc.empty]

theorem sInv_run {s s' : SState} {es : List SEvent} (h : SInv L s) (hr : SRun L fuel s es s') : SInv L s' := by
  induction hr with
  | nil => exact h
  | snoc _ hs ih => exact sInv_step ih hs

theorem SRun.trans {s s' s'' : SState} {es es' : List SEvent} (h : SRun L fuel s es s') (h' : SRun L fuel s' es' s'') :
    SRun L fuel s (es ++ es') s'' := by
  induction h' with
  | nil => simpa using h
  | snoc _ hs ih => rw [← List.append_assoc]; exact .snoc ih hs

/-- The templates that have been parsed. -/
def parsedIds : List SEvent → List Nat := List.filterMap (fun | .parsed _ t => some t | _ => none)

theorem parsedIds_snoc (es : List SEvent) (e : SEvent) : parsedIds (es ++ [e]) = parsedIds es ++ parsedIds [e] := by
  simp [parsedIds]

/-- What has been parsed is what is there or about to be stored. -/
theorem parsed_run {s : SState} {es : List SEvent} (hr : SRun L fuel .init es s) :
    (parsedIds es = [] ∧ s.templates = none ∧ ∀ th r t, s.pc th ≠ .store r t) ∨
    (∃ t th r, parsedIds es = [t] ∧ s.templates = none ∧ s.pc th = .store r t) ∨
    ∃ t, parsedIds es = [t] ∧ s.templates = some t := by
  generalize hi : SState.init = s0 at hr
  induction hr with
  | nil => subst hi; exact .inl ⟨rfl, rfl, fun _ _ _ h => (nomatch h)⟩
  | @snoc es s' e s'' hr hs ih =>
    have inv : SInv L s' := sInv_run (hi ▸ sInv_init) hr
    have hu : ∀ th th', (s'.pc th).critical = true → (s'.pc th').critical = true → th = th' := by
      intro th th' a b
      have a := (inv.hold th).2 a
      rw [(inv.hold th').2 b] at a
      cases a; rfl
    have h5 := inv.empty
    rw [parsedIds_snoc]
    cases hs with
    | @parse th r hp hL =>
      have h0 : s'.templates = none := h5 th (by rw [hp]; rfl)
      have hn : ∀ th' r' t', s'.pc th' ≠ .store r' t' := by
        intro th' r' t' hc
        have := hu th th' (by rw [hp]; rfl) (by rw [hc]; rfl)
        subst this
        rw [hp] at hc; cases hc
      rcases ih with ⟨a, b, c⟩ | ⟨t, th', r', a, b, c⟩ | ⟨t, a, b⟩
      · exact .inr (.inl ⟨s'.next, th, r, by rw [a]; rfl, h0, by simp [upd]⟩)
      · exact absurd c (hn _ _ _)
      · rw [h0] at b; cases b
    | @store th r t hp =>
      rcases ih with ⟨a, b, c⟩ | ⟨t', th', r', a, b, c⟩ | ⟨t', a, b⟩
      · exact absurd hp (c _ _ _)
      · have := hu th th' (by rw [hp]; rfl) (by rw [c]; rfl)
        subst this
        rw [hp] at c
        cases c
        exact .inr (.inr ⟨t, by rw [a]; rfl, rfl⟩)
      · rw [h5 th (by rw [hp]; rfl)] at b; cases b
    | _ =>
      rcases ih with ⟨a, b, c⟩ | ⟨t, th', r', a, b, c⟩ | ⟨t, a, b⟩
      · refine .inl ⟨by rw [a]; rfl, b, ?_⟩
        grind [upd]
      · refine .inr (.inl ⟨t, th', r', by rw [a]; rfl, b, ?_⟩)
        grind [upd]
      · exact .inr (.inr ⟨t, by rw [a]; rfl, b⟩)

theorem parses_of_parsed {s s' : SState} {es : List SEvent} (hr : SRun L fuel s es s') (h : parsedIds es ≠ []) : L.parses = true := by
  induction hr with
  | nil => exact absurd rfl h
  | @snoc es s' e s'' hr hs ih =>
    rw [parsedIds_snoc] at h
    by_cases h0 : parsedIds es = []
    · rw [h0] at h
      cases hs with
      | parse _ hL => exact hL
      | _ => exact absurd rfl h
    · exact ih h0

/-- Steps left. -/
def SPc.rank : SPc → Nat
  | .idle => 0
  | .start _ => 7
  | .want _ => 6
  | .held _ => 5
  | .parse _ => 4
  | .store _ _ => 3
  | .rel _ _ => 2
  | .page _ _ => 1

/-- The event belongs to a request that has been received before. -/
def SEvent.Continues : SEvent → Prop
  | .request _ _ => False
  | _ => True

theorem sStep_rank {s s' : SState} {e : SEvent} (hs : SStep L fuel s e s') (he : e.Continues) :
    ∃ th p, s'.pc = upd s.pc th p ∧ p.rank < (s.pc th).rank := by
  cases hs <;> first | exact absurd he (fun h => h) | exact ⟨_, _, rfl, by simp_all [SPc.rank]⟩

theorem sFinite_run {es : List SEvent} {s : SState} (h : SRun L fuel .init es s) : ∃ K, ∀ th, K ≤ th → s.pc th = .idle := by
  generalize hi : SState.init = s0 at h
  induction h with
  | nil => subst hi; exact ⟨0, fun t _ => rfl⟩
  | @snoc es s' e s'' _ hs ih =>
    obtain ⟨K, hK⟩ := ih
    have : ∃ t p, s''.pc = upd s'.pc t p := by cases hs <;> exact ⟨_, _, rfl⟩
    obtain ⟨t, p, hp⟩ := this
    refine ⟨max K (t + 1), fun t' ht' => ?_⟩
    rw [hp]
    simp only [upd]
    rw [if_neg (by omega)]
    exact hK t' (by omega)

/-- All steps that requests in progress still have to take. -/
def sWork (K : Nat) (s : SState) : Nat := ∑ t ∈ Finset.range K, (s.pc t).rank

theorem sWork_step {K : Nat} {s s' : SState} {e : SEvent} (hK : ∀ t, K ≤ t → s.pc t = .idle) (hs : SStep L fuel s e s')
    (he : e.Continues) : sWork K s' < sWork K s ∧ ∀ t, K ≤ t → s'.pc t = .idle := by
  obtain ⟨t, p, hp, hr⟩ := sStep_rank hs he
  have ht : t < K := by
    by_contra h
    rw [hK t (by omega)] at hr
    simp [SPc.rank] at hr
  refine ⟨Finset.sum_lt_sum (fun t' _ => ?_) ⟨t, by simpa using ht, ?_⟩, fun t' ht' => ?_⟩
  · rw [hp]; simp only [upd]; split
    · next h => subst h; omega
    · exact Nat.le_refl _
  · rw [hp]; simpa [upd] using hr
  · rw [hp]; simp only [upd]; rw [if_neg (by omega)]; exact hK t' ht'

theorem sWork_run {K : Nat} {s s' : SState} {es : List SEvent} (hK : ∀ t, K ≤ t → s.pc t = .idle) (h : SRun L fuel s es s')
    (he : ∀ e ∈ es, e.Continues) : es.length + sWork K s' ≤ sWork K s ∧ ∀ t, K ≤ t → s'.pc t = .idle := by
  induction h with
  | nil => simpa using hK
  | snoc hr hs ih =>
    have h1 := ih (fun e hm => he e (by simp [hm]))
    have h2 := sWork_step h1.2 hs (he _ (by simp))
    exact ⟨by simp only [List.length_append, List.length_singleton]; omega, h2.2⟩

/-- A goroutine that is not waiting for the mutex can go on. -/
theorem sCanGo {s : SState} {th : Nat} (h0 : s.pc th ≠ .idle) (h1 : ∀ r, s.pc th = .want r → s.holder = none) :
    ∃ e s', SStep L fuel s e s' ∧ e.Continues := by
  cases hp : s.pc th with
  | idle => exact absurd hp h0
  | start r =>
    by_cases ha : r.path = b! "/"
    · exact ⟨_, _, .index hp ha, trivial⟩
    · by_cases hb : r.path = b! "/generate.json"
      · exact ⟨_, _, .generate (fun _ => 0) hp hb, trivial⟩
      · exact ⟨_, _, .other hp ha hb, trivial⟩
  | want r => exact ⟨_, _, .lock hp (h1 r hp), trivial⟩
  | held r =>
    cases ht : s.templates with
    | none => exact ⟨_, _, .missing hp ht, trivial⟩
    | some t => exact ⟨_, _, .found hp ht, trivial⟩
  | parse r =>
    cases hL : L.parses with
    | true => exact ⟨_, _, .parse hp hL, trivial⟩
    | false => exact ⟨_, _, .parseFails hp hL, trivial⟩
  | store r t => exact ⟨_, _, .store hp, trivial⟩
  | rel r t => exact ⟨_, _, .unlock hp, trivial⟩
  | page r t => exact ⟨_, _, .page hp, trivial⟩

end Jsval
