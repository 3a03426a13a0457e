import Verif.Spec.Stricter
import Verif.Lemmas.FaultsTree
/-!
# One constraint asks at least as much as another: proofs
-/
namespace Jsval

variable {ext : Ext} {env : Env}

theorem StrC.Tighter.ok {c d : StrC} (h : c.Tighter d) {s : GoStr} (hc : StrOk ext c s) : StrOk ext d s := by
  refine ⟨fun h0 => ?_, fun h0 => ?_, ?_, fun rx hr => hc.regexp rx (h.regexp rx hr), fun l hl => ?_⟩
  · obtain ⟨h1, h2⟩ := h.max h0
    exact (hc.max h1).trans h2
  · rcases h0.lt_or_eq with h0 | h0
    · have h1 := h.min h0
      exact h1.trans (hc.min (h0.le.trans h1))
    · omega
  · rcases h.format with hf | hf
    · rw [hf]; simp [FormatOk]
    · rw [hf]; exact hc.format
  · obtain ⟨l', h1, h2⟩ := h.enums l hl
    exact h2 _ (hc.enums l' h1)

theorem F64.MultOf.trans {f m m' : F64} (h : F64.MultOf f m') (h0 : ¬ m'.IsZero) (h' : F64.MultOf m' m) : F64.MultOf f m := by
  cases m' with
  | nan => cases h'
  | inf n => cases h'
  | fin n' b =>
    cases f with
    | nan => cases h
    | inf n => cases h
    | fin n a =>
      cases m with
      | nan => cases h'
      | inf n'' => exact absurd ⟨n', by cases (show b = 0 from h'); rfl⟩ h0
      | fin n'' z =>
        obtain ⟨k, hk⟩ := h
        obtain ⟨k', hk'⟩ := h'
        exact ⟨k * k', by rw [hk, hk', mul_assoc]⟩

theorem F64.Lt.transL {a b c : F64} (h : F64.Lt a b) (h' : F64.Lt b c ∨ F64.Eq b c) : F64.Lt a c := by
  obtain ⟨x, y, h1, h2, h3⟩ := h
  rcases h' with ⟨y', z, h4, h5, h6⟩ | ⟨y', h4, h5⟩
  · rw [h2] at h4; cases h4; exact ⟨x, z, h1, h5, h3.trans h6⟩
  · rw [h2] at h4; cases h4; exact ⟨x, y, h1, h5, h3⟩

theorem F64.Lt.transR {a b c : F64} (h' : F64.Lt a b ∨ F64.Eq a b) (h : F64.Lt b c) : F64.Lt a c := by
  obtain ⟨y, z, h1, h2, h3⟩ := h
  rcases h' with ⟨x, y', h4, h5, h6⟩ | ⟨y', h4, h5⟩
  · rw [h1] at h5; cases h5; exact ⟨x, z, h4, h2, h6.trans h3⟩
  · rw [h1] at h5; cases h5; exact ⟨y, z, h4, h2, h3⟩

theorem F64.Eq.swap {a b : F64} (h : F64.Eq a b) : F64.Eq b a := by obtain ⟨x, h1, h2⟩ := h; exact ⟨x, h2, h1⟩

theorem F64.Eq.join {a b c : F64} (h : F64.Eq a b) (h' : F64.Eq b c) : F64.Eq a c := by
  obtain ⟨x, h1, h2⟩ := h
  obtain ⟨y, h3, h4⟩ := h'
  rw [h2] at h3; cases h3
  exact ⟨x, h1, h4⟩

theorem NumC.Tighter.ok {c d : NumC} (h : c.Tighter d) {f : F64} (hc : NumOk c f) : NumOk d f := by
  refine ⟨fun m hm hl => ?_, fun m hm hx he => ?_, fun m hm hl => ?_, fun m hm hx he => ?_, fun m hm h0 => ?_, fun l hl => ?_⟩
  · obtain ⟨m', h1, h2⟩ := h.min m hm
    exact hc.min m' h1 (hl.transL (h2.imp id And.left))
  · obtain ⟨m', h1, h2⟩ := h.min m hm
    rcases h2 with h2 | ⟨h2, h3⟩
    · exact hc.min m' h1 (.transR (.inr he) h2)
    · exact hc.exclMin m' h1 (h3 hx) (he.join h2)
  · obtain ⟨m', h1, h2⟩ := h.max m hm
    exact hc.max m' h1 (.transR (h2.imp id And.left) hl)
  · obtain ⟨m', h1, h2⟩ := h.max m hm
    rcases h2 with h2 | ⟨h2, h3⟩
    · exact hc.max m' h1 (h2.transL (.inr he.swap))
    · exact hc.exclMax m' h1 (h3 hx) (he.join h2.swap)
  · rcases h.mult m hm with hz | ⟨m', h1, h2, h3⟩
    · exact absurd hz h0
    · exact (hc.mult m' h1 h2).trans h2 h3
  · obtain ⟨l', h1, h2⟩ := h.enums l hl
    obtain ⟨g, h3, h4⟩ := hc.enums l' h1
    exact ⟨g, h2 _ h3, h4⟩

theorem Constraint.Child.size {c d : Constraint} (h : c.Child d) : sizeOf d < sizeOf c := by
  cases h with
  | @array a d h =>
    obtain ⟨items, pos, add, mn, mx, u⟩ := a
    cases h with
    | items h => simp only at h; subst h; simp; omega
    | positional h => have := List.sizeOf_lt_of_mem h; simp at this ⊢; omega
    | additional h => simp only at h; subst h; simp; omega
  | @object o d h =>
    obtain ⟨props, pats, add, req, pd, sd, mn, mx⟩ := o
    cases h with
    | prop h => have := List.sizeOf_lt_of_mem h; simp at this ⊢; omega
    | pattern h => have := List.sizeOf_lt_of_mem h; simp at this ⊢; omega
    | additional h => simp only at h; subst h; simp; omega
    | dependency h =>
      have := List.sizeOf_lt_of_mem (alookup_mem h)
      simp at this ⊢; omega
  | any h => have := List.sizeOf_lt_of_mem h; simp; omega
  | all h => have := List.sizeOf_lt_of_mem h; simp; omega
  | oneOf h => have := List.sizeOf_lt_of_mem h; simp; omega
  | not => simp; omega

/-- A value of one kind. -/
theorem sort_apart {ρ ρ' : RefSem} {c d : Constraint} {k k' : Sort'} (hc : c.sort? = some k) (hd : d.sort? = some k') (hk : k ≠ k') {v : GoVal} {σ τ : Sched}
    (h1 : ((denote ext ρ c).val σ v).1 = .ok) (h2 : ((denote ext ρ' d).val τ v).1 = .ok) : False := by
  have key : ∀ {ρ : RefSem} {c : Constraint} {σ : Sched} {k : Sort'}, c.sort? = some k → ((denote ext ρ c).val σ v).1 = .ok →
      (k = .str ∧ ∃ s, Target v (.str s)) ∨ (k = .num ∧ ((∃ i n, Target v (.int i n)) ∨ (∃ i n, Target v (.uint i n)) ∨ ∃ i f, Target v (.float i f))) ∨
      (k = .bool ∧ ∃ b, Target v (.bool b)) ∨ (k = .arr ∧ ∃ n xs, Target v (.slice n xs)) := by
    intro ρ c σ k hk h
    cases c <;> simp only [Constraint.sort?, Option.some.injEq, reduceCtorEq] at hk <;> subst hk
    · obtain ⟨b, rfl⟩ := (C08_boolean_exact (ext := ext) (ρ := ρ) (σ := σ) _ _).1 h
      exact .inr (.inr (.inl ⟨rfl, b, .self _ (by simp) (by simp)⟩))
    · obtain ⟨s, hs, -⟩ := (C10_string_exact (ext := ext) (ρ := ρ) (σ := σ) _ _).1 h
      exact .inl ⟨rfl, s, hs⟩
    · obtain ⟨i, f, hs, -⟩ := (C16_number_exact (ext := ext) (ρ := ρ) (σ := σ) _ _).1 h
      exact .inr (.inl ⟨rfl, .inr (.inr ⟨i, f, hs⟩)⟩)
    · obtain ⟨x, f, hs, hi, -⟩ := (C18_integer_exact (ext := ext) (ρ := ρ) (σ := σ) _ _).1 h
      refine .inr (.inl ⟨rfl, ?_⟩)
      cases hi
      · exact .inl ⟨_, _, hs⟩
      · exact .inr (.inl ⟨_, _, hs⟩)
      · exact .inr (.inr ⟨_, _, hs⟩)
    · rw [denote_array] at h
      unfold arrayV at h
      split at h
      · rename_i n xs hs
        have : v = .slice n xs := by cases v <;> simp_all [valueOf]
        subst this
        exact .inr (.inr (.inr ⟨rfl, n, xs, .self _ (by simp) (by simp)⟩))
      · cases h
  have t : ∀ {x y : GoVal}, Target v x → Target v y → x = y := target_unique
  rcases key hc h1 with ⟨rfl, s, a⟩ | ⟨rfl, ⟨i, n, a⟩ | ⟨i, n, a⟩ | ⟨i, f, a⟩⟩ | ⟨rfl, b, a⟩ | ⟨rfl, n, xs, a⟩ <;>
  rcases key hd h2 with ⟨rfl, s', a'⟩ | ⟨rfl, ⟨i', n', a'⟩ | ⟨i', n', a'⟩ | ⟨i', f', a'⟩⟩ | ⟨rfl, b', a'⟩ | ⟨rfl, n', xs', a'⟩ <;>
  first
  | exact hk rfl
  | cases t a a'

theorem bare_of_orderly {c : Constraint} (h : Orderly ext c) : BareNode c := by
  refine ⟨h.1, ?_⟩
  have := h.2
  cases c <;> first | trivial | exact this.1

theorem stricter_array {a b : ArrC Sem} (T : Sem → Sem → Prop) (hT : ∀ c d, T c d → ∀ x, Tidy x → ∀ σ τ e, (c.val σ x).1 = .ok → (d.val τ x).1 ≠ .err e)
    (hmin : 0 < b.minItems → b.minItems ≤ a.minItems) (hmax : 0 ≤ b.maxItems → 0 ≤ a.maxItems ∧ a.maxItems ≤ b.maxItems)
    (hu : b.unique = true → a.unique = true) (hi : ∀ d, b.items = some d → ∃ c, a.items = some c ∧ T c d)
    (hp : b.items = none → b.positional = [] ∨ (a.items = none ∧ a.positional.length = b.positional.length ∧
      (∀ (j : ℕ) (c d : Sem), a.positional[j]? = some c → b.positional[j]? = some d → T c d) ∧
      (b.additional = none → a.additional = none) ∧ ∀ d, b.additional = some d → a.additional = none ∨ ∃ c, a.additional = some c ∧ T c d))
    (ha : ∀ c, a.Child c → c.ReadOnly) (hb : ∀ c, b.Child c → c.ReadOnly) {v : GoVal} (hv : Tidy v) {σ τ : Sched} {e : Err}
    (h1 : (arrayV ext a σ v).1 = .ok) : (arrayV ext b τ v).1 ≠ .err e := by
  intro h2
  by_cases hsl : ∃ n xs, v = .slice n xs
  · obtain ⟨n, xs, rfl⟩ := hsl
    have hx : ∀ x ∈ xs, Tidy x := by cases hv; assumption
    obtain ⟨o1, o2, o3, o4, o5⟩ := array_ok ha h1
    rcases arrayV_err hb h2 with ⟨rfl, h3, h4⟩ | ⟨rfl, h3, h4⟩ | ⟨rfl, h3, h4⟩ | ⟨s, x, τ', h3, h4, h5⟩ | ⟨h0, j, s, x, τ', h3, h4, h5⟩ |
      ⟨h0, hl1, hl2, h4⟩
    · have := hmin (by omega); exact o1 ⟨by omega, by omega⟩
    · have := hmax h3; exact o2 ⟨by omega, by omega⟩
    · exact o3 ⟨hu h3, h4⟩
    · obtain ⟨c, hc, ht⟩ := hi s h3
      obtain ⟨σ', hσ⟩ := o4 c hc x h4
      exact hT c s ht x (hx x h4) _ _ _ hσ h5
    · rcases hp h0 with hp | ⟨p1, p2, p3, -⟩
      · rw [hp] at h3; simp at h3
      · have hj : j < a.positional.length := by rw [p2]; exact (List.getElem?_eq_some_iff.1 h3).1
        obtain ⟨σ', hσ⟩ := (o5 p1).1 j _ x (List.getElem?_eq_getElem hj) h4
        exact hT _ s (p3 j _ s (List.getElem?_eq_getElem hj) h3) x (hx x (List.mem_of_getElem? h4)) _ _ _ hσ h5
    · rcases hp h0 with hp | ⟨p1, p2, -, p4, p5⟩
      · rw [hp] at hl1; simp at hl1
      · obtain ⟨c, hc, hall⟩ := (o5 p1).2 (by omega) (by omega)
        rcases h4 with ⟨h3, rfl⟩ | ⟨j, s, x, τ', h3, h4, h5, h6⟩
        · rw [p4 h3] at hc; cases hc
        · rcases p5 s h3 with p5 | ⟨c', hc', ht⟩
          · rw [p5] at hc; cases hc
          · rw [hc'] at hc; cases hc
            obtain ⟨σ', hσ⟩ := hall j x (by omega) h5
            exact hT _ s ht x (hx x (List.mem_of_getElem? h5)) _ _ _ hσ h6
  · unfold arrayV at h1
    split at h1
    · rename_i n xs hs
      exact hsl ⟨n, xs, by cases v <;> simp_all [valueOf]⟩
    · cases h1

theorem ObjC.Tighter.covers {S : Constraint → Constraint → Prop} {o p : ObjC Constraint} (h : o.Tighter ext S p) {k : GoStr} (hk : p.Covers ext k) :
    o.Covers ext k := by
  rcases hk with ⟨d, hd⟩ | ⟨id, src, d, hd, hm⟩
  · obtain ⟨c, hc, -⟩ := h.props k d hd
    exact .inl ⟨c, hc⟩
  · obtain ⟨id', c, hc, -⟩ := h.patterns id src d hd
    exact .inr ⟨id', src, c, hc, hm⟩

/-- Two runs at the given fuels. -/
def Compatible (ext : Ext) (env : Env) (k l : ℕ) (c d : Constraint) : Prop :=
  ∀ v, Tidy v → ∀ σ τ e, ((sem ext env k c).val σ v).1 = .ok → ((sem ext env l d).val τ v).1 ≠ .err e

theorem stricter_step (henv : env.Every (Orderly ext)) {S : Constraint → Constraint → Prop} {c d : Constraint} {k l : ℕ}
    (h : Tightens ext env S c d) (hc : c.Every (Orderly ext)) (hd : d.Every (Orderly ext))
    (ihFuel : ∀ c' d' k' l', k' + l' < k + l → S c' d' → c'.Every (Orderly ext) → d'.Every (Orderly ext) → Compatible ext env k' l' c' d')
    (ih : ∀ c' d', sizeOf c' + sizeOf d' < sizeOf c + sizeOf d → S c' d' → c'.Every (Orderly ext) → d'.Every (Orderly ext) →
      Compatible ext env k l c' d' ∧ Compatible ext env l k c' d') : Compatible ext env k l c d := by
  have hro : ∀ {c : Constraint}, c.Every (Orderly ext) → ∀ fuel, (sem ext env fuel c).ReadOnly ∧ ∀ dv, (sem ext env fuel c).dflt ≠ .some dv :=
    fun hc fuel => bare_sem (henv.imp fun _ h => h.1) (hc.imp fun _ h => h.1) fuel
  have hsem : ∀ fuel, sem ext env fuel = denote ext (refSem ext env fuel) := fun _ => rfl
  have hlist : ∀ {c : Constraint}, c.Every (Orderly ext) → ∀ fuel (cs : List Constraint), (∀ d ∈ cs, c.Child d) →
      ∀ s ∈ cs.map (sem ext env fuel), s.ReadOnly := by
    intro c hc fuel cs h s hs
    obtain ⟨d, hd, rfl⟩ := List.mem_map.1 hs
    exact (hro (hc.child (h d hd)) fuel).1
  have harr : ∀ {a : ArrC Constraint}, (Constraint.array a).Every (Orderly ext) → ∀ fuel, ∀ s, (a.map (sem ext env fuel)).Child s → s.ReadOnly := by
    intro a hc fuel s hs
    cases hs with
    | items hi =>
      obtain ⟨d, hd, rfl⟩ := Option.map_eq_some_iff.1 hi
      exact (hro (hc.child (.array (.items hd))) fuel).1
    | positional hi =>
      obtain ⟨d, hd, rfl⟩ := List.mem_map.1 hi
      exact (hro (hc.child (.array (.positional hd))) fuel).1
    | additional hi =>
      obtain ⟨d, hd, rfl⟩ := Option.map_eq_some_iff.1 hi
      exact (hro (hc.child (.array (.additional hd))) fuel).1
  have ihB : ∀ {c' d'}, c.Child c' → d.Child d' → S c' d' → Compatible ext env k l c' d' := fun {c' d'} h1 h2 hs =>
    (ih c' d' (by have := h1.size; have := h2.size; omega) hs (hc.child h1) (hd.child h2)).1
  intro v hv σ τ e h1 h2
  cases h with
  | same =>
    have hb : env.Every BareNode := henv.imp fun _ => bare_of_orderly
    exact (sem_fault hb l c (hc.imp fun _ => bare_of_orderly) v hv τ e h2).blocks henv hc hv k σ h1
  | anything => simp [sem, denote] at h2
  | boolean =>
    obtain ⟨b, hb⟩ := (C08_boolean_exact (ext := ext) (ρ := refSem ext env k) (σ := σ) _ _).1 h1
    have := (C08_boolean_exact (ext := ext) (ρ := refSem ext env l) (σ := τ) (by assumption) v).2 ⟨b, hb⟩
    unfold Sem.AcceptsBy at this
    rw [hsem, this] at h2
    cases h2
  | string ht =>
    obtain ⟨s, hs, hok⟩ := (C10_string_exact (ext := ext) (ρ := refSem ext env k) (σ := σ) _ _).1 h1
    have := (C10_string_exact (ext := ext) (ρ := refSem ext env l) (σ := τ) _ v).2 ⟨s, hs, ht.ok hok⟩
    unfold Sem.AcceptsBy at this
    rw [hsem, this] at h2
    cases h2
  | number ht =>
    obtain ⟨i, f, hs, hok⟩ := (C16_number_exact (ext := ext) (ρ := refSem ext env k) (σ := σ) _ _).1 h1
    have := (C16_number_exact (ext := ext) (ρ := refSem ext env l) (σ := τ) _ v).2 ⟨i, f, hs, ht.ok hok⟩
    unfold Sem.AcceptsBy at this
    rw [hsem, this] at h2
    cases h2
  | integer ht =>
    obtain ⟨x, f, hs, hi, hok⟩ := (C18_integer_exact (ext := ext) (ρ := refSem ext env k) (σ := σ) _ _).1 h1
    have := (C18_integer_exact (ext := ext) (ρ := refSem ext env l) (σ := τ) _ v).2 ⟨x, f, hs, hi, ht.ok hok⟩
    unfold Sem.AcceptsBy at this
    rw [hsem, this] at h2
    cases h2
  | enum ht =>
    obtain ⟨x, hx, hs⟩ := enumCheck_same (by simpa [sem, denote, pureV] using h1)
    obtain ⟨-, h3⟩ := enumCheck_err (by simpa [sem, denote, pureV] using h2)
    exact h3 x (ht x hx) hs
  | @array a b ht =>
    rw [hsem, denote_array, ← hsem] at h1 h2
    refine stricter_array (ext := ext) (a := a.map (sem ext env k)) (b := b.map (sem ext env l))
      (fun s t => ∃ c' d', s = sem ext env k c' ∧ t = sem ext env l d' ∧ Compatible ext env k l c' d') ?_ ht.min ht.max ht.unique ?_ ?_
      (harr hc k) (harr hd l) hv h1 h2
    · rintro s t ⟨c', d', rfl, rfl, hcd⟩ x hx σ τ e h3 h4
      exact hcd x hx σ τ e h3 h4
    · intro t hi
      obtain ⟨d', hd', rfl⟩ := Option.map_eq_some_iff.1 hi
      obtain ⟨c', hc', hs⟩ := ht.items d' hd'
      exact ⟨_, Option.map_eq_some_iff.2 ⟨c', hc', rfl⟩, c', d', rfl, rfl, ihB (.array (.items hc')) (.array (.items hd')) hs⟩
    · intro h0
      rcases ht.positional (Option.map_eq_none_iff.1 h0) with hp | ⟨p1, p2, p3, p4, p5⟩
      · exact .inl (by simp [ArrC.map, hp])
      · refine .inr ⟨Option.map_eq_none_iff.2 p1, by simp [ArrC.map, p2], ?_, fun ha => Option.map_eq_none_iff.2 (p4 (Option.map_eq_none_iff.1 ha)), ?_⟩
        · intro j s t hs ht'
          simp only [ArrC.map, List.getElem?_map, Option.map_eq_some_iff] at hs ht'
          obtain ⟨c', hc', rfl⟩ := hs
          obtain ⟨d', hd', rfl⟩ := ht'
          exact ⟨c', d', rfl, rfl, ihB (.array (.positional (List.mem_of_getElem? hc'))) (.array (.positional (List.mem_of_getElem? hd')))
            (p3 j c' d' hc' hd')⟩
        · intro t ha
          obtain ⟨d', hd', rfl⟩ := Option.map_eq_some_iff.1 ha
          rcases p5 d' hd' with p5 | ⟨c', hc', hs⟩
          · exact .inl (Option.map_eq_none_iff.2 p5)
          · exact .inr ⟨_, Option.map_eq_some_iff.2 ⟨c', hc', rfl⟩, c', d', rfl, rfl, ihB (.array (.additional hc')) (.array (.additional hd')) hs⟩
  | @object o p ht =>
    rw [hsem, denote_object, ← hsem] at h1 h2
    obtain ⟨hwo, hov⟩ := hc.self.2
    obtain ⟨hwp, -⟩ := hd.self.2
    have hroP : ∀ s, (p.map (sem ext env l)).Child s → s.ReadOnly := by
      intro s hs
      obtain ⟨d, hd', rfl⟩ := (ObjC.map_child _ p).1 hs
      exact (hro (hd.child (.object hd')) l).1
    have hdP : ∀ q s, (q, s) ∈ (p.map (sem ext env l)).props → ∀ dv, s.dflt ≠ .some dv := by
      intro q s hs
      obtain ⟨d, hd', rfl⟩ := (ObjC.map_mem_props _ p).1 hs
      exact (hro (hd.child (.object (.prop hd'))) l).2
    have conv : ∀ {kvs raws}, Props v kvs raws → ObjComplaint ext (p.map (sem ext env l)) v kvs raws e → False := by
      intro kvs raws hp hcm
      have hk := (hp.tidy hv).1
      have hr := (hp.tidy hv).2
      have hrules : ObjRules ext (o.map (sem ext env k)) (fun c x => ∃ τ, (c.val τ x).1 = .ok) v kvs raws := by
        refine object_ok ((ObjC.map_wf _ o).2 hwo) ?_ ?_ hp ?_ h1
        · intro s hs
          obtain ⟨d, hd, rfl⟩ := (ObjC.map_child _ o).1 hs
          exact (hro (hc.child (.object hd)) k).1
        · intro p s hs
          obtain ⟨d, hd, rfl⟩ := (ObjC.map_mem_props _ o).1 hs
          exact (hro (hc.child (.object (.prop hd))) k).2
        · intro k _ hkd p hp q hq hp' hq'
          simp only [ObjC.map, List.mem_map] at hp hq
          obtain ⟨p, hp, rfl⟩ := hp
          obtain ⟨q, hq, rfl⟩ := hq
          rw [hov k (fun h' => hkd ((ObjC.map_declares _ o).2 h')) p hp q hq hp' hq']
      have patO : ∀ {n}, o.PatternFor ext n → p.PatternFor ext n := by
        rintro n ⟨id, src, c, hc, hm⟩
        obtain ⟨id', d, hd⟩ := ht.sources id src c hc
        exact ⟨id', src, d, hd, hm⟩
      cases hcm with
      | fewProps h3 h4 =>
        simp only [ObjC.map] at h3 h4
        have h5 := ht.min (by omega)
        have h6 := hrules.count.1 (le_trans (by exact h3) h5)
        simp only [ObjC.map] at h6
        omega
      | manyProps h3 h4 =>
        have h5 := ht.max h3
        have h6 := hrules.count.2 h5.1
        simp only [ObjC.map] at h4 h5 h6
        omega
      | required h3 h4 h5 =>
        have h4' := (ObjC.map_declares _ p).1 h4
        obtain ⟨d, hd'⟩ := h4'
        obtain ⟨c', hc', -⟩ := ht.props _ d hd'
        exact h5 (hrules.required _ (ht.required _ h3 ⟨d, hd'⟩) ((ObjC.map_declares _ o).2 ⟨c', hc'⟩))
      | prop h3 h4 h5 =>
        obtain ⟨d, hd', rfl⟩ := (ObjC.map_mem_props _ p).1 h3
        obtain ⟨c', hc', hs⟩ := ht.props _ d hd'
        obtain ⟨σ', hσ⟩ := hrules.declared _ _ _ ((ObjC.map_mem_props _ o).2 ⟨c', hc', rfl⟩) h4
        exact ihB (.object (.prop hc')) (.object (.prop hd')) hs _ (hk _ _ h4) _ _ _ hσ h5
      | @pattern n id src s x τ' e' h3 h4 h5 h6 h7 =>
        obtain ⟨d, hd', rfl⟩ := (ObjC.map_mem_pats _ p).1 h4
        have hnd : ¬ p.Declares n := fun h' => h3 ((ObjC.map_declares _ p).2 h')
        have hno : ¬ o.Declares n := fun h' => (ht.fresh n h' hnd).2 ⟨_, _, d, hd', h5⟩
        obtain ⟨id', c', hc', hs⟩ := ht.patterns _ _ d hd'
        obtain ⟨σ', hσ⟩ := hrules.pattern _ _ h6 (fun h' => hno ((ObjC.map_declares _ o).1 h')) _ _ _ ((ObjC.map_mem_pats _ o).2 ⟨c', hc', rfl⟩) h5
        exact ihB (.object (.pattern hc')) (.object (.pattern hd')) hs _ (hr _ _ h6) _ _ _ hσ h7
      | @addlNotAllowed n h3 h4 h5 h6 =>
        have hnone := Option.map_eq_none_iff.1 h6
        have hnd : ¬ p.Declares n := fun h' => h3 ((ObjC.map_declares _ p).2 h')
        have hno : ¬ o.Declares n := fun h' => by have := (ht.fresh n h' hnd).1; rw [hnone] at this; cases this
        obtain ⟨x, hx⟩ := hp.has_raw h5
        obtain ⟨s, hs, -⟩ := hrules.additional _ _ hx (fun h' => hno ((ObjC.map_declares _ o).1 h'))
          (fun h' => h4 ((ObjC.map_patternFor _ p).2 (patO ((ObjC.map_patternFor _ o).1 h'))))
        obtain ⟨c', hc', -⟩ := Option.map_eq_some_iff.1 hs
        rw [ht.additional.1 hnone] at hc'
        cases hc'
      | @addlProp n s x τ' e' h3 h4 h5 h6 h7 =>
        obtain ⟨d, hd', rfl⟩ := Option.map_eq_some_iff.1 h5
        have hnd : ¬ p.Declares n := fun h' => h3 ((ObjC.map_declares _ p).2 h')
        have hno : ¬ o.Declares n := fun h' => by
          have := (ht.fresh n h' hnd).1
          rw [hd'] at this
          cases this
          simp [sem, denote] at h7
        obtain ⟨s, hs, σ', hσ⟩ := hrules.additional _ _ h6 (fun h' => hno ((ObjC.map_declares _ o).1 h'))
          (fun h' => h4 ((ObjC.map_patternFor _ p).2 (patO ((ObjC.map_patternFor _ o).1 h'))))
        obtain ⟨c', hc', rfl⟩ := Option.map_eq_some_iff.1 hs
        rcases ht.additional.2 d hd' with hn | ⟨c'', hc'', hs'⟩
        · rw [hn] at hc'; cases hc'
        · rw [hc''] at hc'; cases hc'
          exact ihB (.object (.additional hc'')) (.object (.additional hd')) hs' _ (hr _ _ h6) _ _ _ hσ h7
      | @depMissing n q h3 h4 h5 h6 =>
        obtain ⟨h7, h8⟩ := ht.propDeps n q h5
        obtain ⟨h9, h10⟩ := hrules.propDeps n h3 ((ObjC.map_covers _ o).2 (ht.covers ((ObjC.map_covers _ p).1 h4))) q h7
        refine h6 ⟨h9, (ObjC.map_covers _ p).2 ?_⟩
        rcases (ObjC.map_covers _ o).1 h10 with h10 | h10
        · exact .inl (h8 h10)
        · exact .inr (patO h10)
      | @dependency n s τ' e' h3 h4 h5 h6 h7 =>
        rw [ObjC.map_schemaDep] at h6
        obtain ⟨d, hd', rfl⟩ := Option.map_eq_some_iff.1 h6
        obtain ⟨h8, c', hc', hs⟩ := ht.schemaDeps n d h5 hd'
        obtain ⟨σ', hσ⟩ := hrules.schemaDeps n h3 ((ObjC.map_covers _ o).2 (ht.covers ((ObjC.map_covers _ p).1 h4))) h8 _
          (by rw [ObjC.map_schemaDep, hc']; rfl)
        exact ihB (.object (.dependency hc')) (.object (.dependency hd')) hs _ hv _ _ _ hσ h7
    rcases tidy_object hv with ⟨kvs, raws, hobj, -, -⟩ | ⟨t, ht'⟩ | ⟨s, hs⟩
    · exact conv (.obj hobj) (objectV_err hobj ((ObjC.map_wf _ p).2 hwp) hroP hdP h2)
    · exact conv (.time ((indirect_iff (by simp) (by simp) (by simp)).1 ht')) (objectV_time_err hdP ht' h2)
    · unfold objectV at h1
      simp only [hs] at h1
      cases s <;> cases h1
  | @anyLeft cs d ht =>
    rw [hsem, denote_any, ← hsem] at h1
    obtain ⟨s, hs, σ', hσ⟩ := any_ok (hlist hc k _ fun d hd => .any hd) h1
    obtain ⟨c', hc', rfl⟩ := List.mem_map.1 hs
    have hch : (Constraint.any cs).Child c' := .any hc'
    exact (ih c' d (by have := hch.size; omega) (ht c' hc') (hc.child hch) hd).1 v hv _ _ _ hσ h2
  | @anyRight c d ds hm ht =>
    rw [hsem, denote_any, ← hsem] at h2
    obtain ⟨-, h3⟩ := any_err (hlist hd l _ fun d hd => .any hd) h2
    obtain ⟨τ', e', he⟩ := h3 _ (List.mem_map.2 ⟨d, hm, rfl⟩)
    have hch : (Constraint.any ds).Child d := .any hm
    exact (ih c d (by have := hch.size; omega) ht hc (hd.child hch)).1 v hv _ _ _ h1 he
  | @allLeft c cs d hm ht =>
    rw [hsem, denote_all, ← hsem] at h1
    obtain ⟨σ', hσ⟩ := all_ok (hlist hc k _ fun d hd => .all hd) h1 _ (List.mem_map.2 ⟨c, hm, rfl⟩)
    have hch : (Constraint.all cs).Child c := .all hm
    exact (ih c d (by have := hch.size; omega) ht (hc.child hch) hd).1 v hv _ _ _ hσ h2
  | @allRight c ds ht =>
    rw [hsem, denote_all, ← hsem] at h2
    obtain ⟨s, hs, τ', he⟩ := all_err (hlist hd l _ fun d hd => .all hd) h2
    obtain ⟨d, hm, rfl⟩ := List.mem_map.1 hs
    have hch : (Constraint.all ds).Child d := .all hm
    exact (ih c d (by have := hch.size; omega) (ht d hm) hc (hd.child hch)).1 v hv _ _ _ h1 he
  | @oneOfLeft cs d ht =>
    rw [hsem, denote_oneOf, ← hsem] at h1
    obtain ⟨-, ⟨j, s, hs, hτ⟩, -⟩ := oneOf_ok (hlist hc k _ fun d hd => .oneOf hd) h1
    obtain ⟨c', hc', rfl⟩ := List.mem_map.1 (List.mem_of_getElem? hs)
    have hch : (Constraint.oneOf cs).Child c' := .oneOf hc'
    exact (ih c' d (by have := hch.size; omega) (ht c' hc') (hc.child hch) hd).1 v hv _ _ _ hτ h2
  | @oneOfRight c ds i d hi ht hx =>
    rw [hsem, denote_oneOf, ← hsem] at h2
    rcases oneOf_err (hlist hd l _ fun d hd => .oneOf hd) h2 with ⟨rfl, h3⟩ | ⟨rfl, a, b, s, t, hab, ha, hb, h3, h4⟩
    · obtain ⟨e', he⟩ := h3 i (sem ext env l d) (by rw [List.getElem?_map, hi]; rfl)
      have hch : (Constraint.oneOf ds).Child d := .oneOf (List.mem_of_getElem? hi)
      exact (ih c d (by have := hch.size; omega) ht hc (hd.child hch)).1 v hv _ _ _ h1 he
    · rw [List.getElem?_map, Option.map_eq_some_iff] at ha hb
      obtain ⟨p, ha, rfl⟩ := ha
      obtain ⟨q, hb, rfl⟩ := hb
      have key : ∀ (j : ℕ) (x : Constraint) (σ' : Sched), j ≠ i → ds[j]? = some x → ((sem ext env l x).val σ' v).1 = .ok → False := by
        intro j x σ' hj hxj hok
        have hch : (Constraint.oneOf ds).Child x := .oneOf (List.mem_of_getElem? hxj)
        have hnot : (Constraint.not (some x)).Every (Orderly ext) := by
          intro y hy
          cases hy with
          | refl => exact ⟨rfl, trivial⟩
          | child hy hy' => cases hy; exact (hd.child hch) y hy'
        have hlen : sizeOf (Constraint.not (some x)) < sizeOf (Constraint.oneOf ds) := by
          have hpos : ds.length ≥ 2 := by
            have h5 := (List.getElem?_eq_some_iff.1 hi).1
            have h6 := (List.getElem?_eq_some_iff.1 hxj).1
            omega
          have hsz : ∀ (ds : List Constraint) (x : Constraint), 2 ≤ ds.length → x ∈ ds → sizeOf x + 2 ≤ sizeOf ds := by
            intro ds x h2 hm
            match ds, h2, hm with
            | y :: z :: rest, _, hm =>
              rcases List.mem_cons.1 hm with rfl | hm
              · simp; omega
              · have := List.sizeOf_lt_of_mem hm
                simp at this ⊢
                omega
          have := hsz ds x hpos (List.mem_of_getElem? hxj)
          simp
          omega
        have hσ : ((sem ext env l (.not (some x))).val (fun a => σ' a.tail) v).1 = .err .notFailed := by
          rw [hsem, denote_not, ← hsem]
          simp only [Option.map_some, notV]
          have : (Sched.sub (fun a => σ' a.tail) 0) = σ' := by funext a; rfl
          rw [this]
          rcases hw : (sem ext env l x).val σ' v with ⟨r, w⟩
          rw [hw] at hok
          simp only at hok
          subst hok
          rfl
        exact (ih c _ (by omega) (hx j x hj hxj) hc hnot).1 v hv _ _ _ h1 hσ
      by_cases hai : a = i
      · exact key b q _ (by omega) hb h4
      · exact key a p _ hai ha h3
  | @oneOf cs ds hlen ht =>
    rw [hsem, denote_oneOf, ← hsem] at h1 h2
    obtain ⟨q1, ⟨j, s, hs, hτ⟩, q2⟩ := oneOf_ok (hlist hc k _ fun d hd => .oneOf hd) h1
    have other : ∀ (j : ℕ) (x : Constraint), cs[j]? = some x → ∃ y, ds[j]? = some y := fun j x h => by
      have := (List.getElem?_eq_some_iff.1 h).1
      exact ⟨ds[j], List.getElem?_eq_getElem (by omega)⟩
    have other' : ∀ (j : ℕ) (y : Constraint), ds[j]? = some y → ∃ x, cs[j]? = some x := fun j y h => by
      have := (List.getElem?_eq_some_iff.1 h).1
      exact ⟨cs[j], List.getElem?_eq_getElem (by omega)⟩
    have size : ∀ {j : ℕ} {x y : Constraint}, cs[j]? = some x → ds[j]? = some y → (Constraint.oneOf cs).Child x ∧ (Constraint.oneOf ds).Child y ∧
        sizeOf x < sizeOf (Constraint.oneOf cs) ∧ sizeOf y < sizeOf (Constraint.oneOf ds) := fun h h' =>
      ⟨.oneOf (List.mem_of_getElem? h), .oneOf (List.mem_of_getElem? h'), (Constraint.Child.oneOf (List.mem_of_getElem? h)).size,
        (Constraint.Child.oneOf (List.mem_of_getElem? h')).size⟩
    rcases oneOf_err (hlist hd l _ fun d hd => .oneOf hd) h2 with ⟨rfl, h3⟩ | ⟨rfl, a, b, s, t, hab, ha, hb, h3, h4⟩
    · rw [List.getElem?_map, Option.map_eq_some_iff] at hs
      obtain ⟨x, hx, rfl⟩ := hs
      obtain ⟨y, hy⟩ := other j x hx
      obtain ⟨e', he⟩ := h3 j (sem ext env l y) (by rw [List.getElem?_map, hy]; rfl)
      obtain ⟨z1, z2, z3, z4⟩ := size hx hy
      exact (ih x y (by omega) (ht j x y hx hy).1 (hc.child z1) (hd.child z2)).1 v hv _ _ _ hτ he
    · rw [List.getElem?_map, Option.map_eq_some_iff] at ha hb
      obtain ⟨p, ha, rfl⟩ := ha
      obtain ⟨q, hb, rfl⟩ := hb
      have key : ∀ (j : ℕ) (x y : Constraint) (σ' : Sched), cs[j]? = some x → ds[j]? = some y → ((sem ext env l y).val σ' v).1 = .ok →
          ((sem ext env k x).val (σ.sub j) v).1 = .ok := by
        intro j x y σ' hx hy hok
        obtain ⟨z1, z2, z3, z4⟩ := size hx hy
        have hno := (ih y x (by omega) (ht j x y hx hy).2 (hd.child z2) (hc.child z1)).2 v hv σ' (σ.sub j)
        have hn := q1 j (sem ext env k x) (by rw [List.getElem?_map, hx]; rfl)
        rcases h5 : ((sem ext env k x).val (σ.sub j) v).1 with _ | e' | a
        · rfl
        · exact absurd h5 (hno e' hok)
        · exact absurd h5 (hn a)
      obtain ⟨x, hx⟩ := other' a p ha
      obtain ⟨x', hx'⟩ := other' b q hb
      exact q2 a b (sem ext env k x) (sem ext env k x') hab (by rw [List.getElem?_map, hx]; rfl) (by rw [List.getElem?_map, hx']; rfl)
        (key a x p _ hx ha h3) (key b x' q _ hx' hb h4)
  | @not c d ht =>
    rw [hsem, denote_not, ← hsem] at h1 h2
    simp only [Option.map_some, notV] at h1 h2
    rcases w1 : (sem ext env k c).val (σ.sub 0) v with ⟨r1, y1⟩
    rcases w2 : (sem ext env l d).val (τ.sub 0) v with ⟨r2, y2⟩
    rw [w1] at h1
    rw [w2] at h2
    cases r1 with
    | ok => cases h1
    | abort _ => cases h1
    | err e1 =>
      cases r2 with
      | err _ => cases h2
      | abort _ => cases h2
      | ok =>
        exact (ih d c (by simp; omega) ht (hd.child .not) (hc.child .not)).2 v hv (τ.sub 0) (σ.sub 0) e1 (by rw [w2]) (by rw [w1])
  | @apart c d s s' hs hs' hne =>
    rw [hsem, denote_not, ← hsem] at h2
    simp only [Option.map_some, notV] at h2
    rcases w2 : (sem ext env l d).val (τ.sub 0) v with ⟨r2, y2⟩
    rw [w2] at h2
    cases r2 with
    | err _ => cases h2
    | abort _ => cases h2
    | ok => exact sort_apart (ext := ext) (ρ := refSem ext env k) (ρ' := refSem ext env l) hs hs' hne h1 (by rw [← hsem, w2])
  | @refLeft m n c d hm ht =>
    simp only [sem, denote] at h1
    cases k with
    | zero => cases h1
    | succ k =>
      simp only [refSem, hm] at h1
      exact ihFuel c d k l (by omega) ht (henv m n c hm) hd v hv _ _ _ h1 h2
  | @refRight m n c d hm ht =>
    simp only [sem, denote] at h2
    cases l with
    | zero => cases h2
    | succ l =>
      simp only [refSem, hm] at h2
      exact ihFuel c d k l (by omega) ht hc (henv m n d hm) v hv _ _ _ h1 h2
  | @refNowhere m n d hm =>
    simp only [sem, denote] at h1
    cases k with
    | zero => cases h1
    | succ k =>
      simp only [refSem, hm] at h1
      cases h1

/-- Acceptance by the stricter side rules out an error of the other. -/
theorem stricter_run (henv : env.Every (Orderly ext)) {S : Constraint → Constraint → Prop} (hS : ∀ c d, S c d → Tightens ext env S c d) :
    ∀ (n m : ℕ) (c d : Constraint) (k l : ℕ), k + l = n → sizeOf c + sizeOf d = m → S c d → c.Every (Orderly ext) → d.Every (Orderly ext) →
      Compatible ext env k l c d := by
  intro n
  induction n using Nat.strong_induction_on with
  | _ n ihn =>
    intro m
    induction m using Nat.strong_induction_on with
    | _ m ihm =>
      rintro c d k l rfl rfl h hc hd
      exact stricter_step henv (hS c d h) hc hd (fun c' d' k' l' hlt hs h1 h2 => ihn _ hlt _ c' d' k' l' rfl rfl hs h1 h2)
        (fun c' d' hlt hs h1 h2 => ⟨ihm _ hlt c' d' k l rfl rfl hs h1 h2, ihm _ hlt c' d' l k (by omega) rfl hs h1 h2⟩)

end Jsval
