import Verif.Spec.JsonSchema
import Verif.Lemmas.SchemaInd
/-!
# References have exactly one meaning when they are grounded
-/
namespace Jsval
variable {ext : Ext}

theorem sizeOf_elem {b : Bool} {x : GoVal} {xs : List GoVal} (h : x ∈ xs) : sizeOf x < sizeOf (GoVal.slice b xs) := by
  have := List.sizeOf_lt_of_mem h
  simp only [GoVal.slice.sizeOf_spec]
  omega

theorem sizeOf_prop {b : Bool} {k : GoStr} {x : GoVal} {kvs : List (GoStr × GoVal)} (h : (k, x) ∈ kvs) :
    sizeOf x < sizeOf (GoVal.map b kvs) := by
  have := List.sizeOf_lt_of_mem h
  simp only [GoVal.map.sizeOf_spec, Prod.mk.sizeOf_spec] at this ⊢
  omega

/-- Validity depends on the meaning of references only where they are met. -/
theorem valid_imp : ∀ (s : Schema) (R R' : GoStr → GoVal → Prop) (v : GoVal),
    (∀ n, s.MentionsHere n → (R n v ↔ R' n v)) →
    (∀ n w, s.Mentions n → sizeOf w < sizeOf v → (R n w ↔ R' n w)) → s.Valid ext R v → s.Valid ext R' v := by
  refine Schema.ind (P := fun s => ∀ (R R' : GoStr → GoVal → Prop) (v : GoVal),
    (∀ n, s.MentionsHere n → (R n v ↔ R' n v)) →
    (∀ n w, s.Mentions n → sizeOf w < sizeOf v → (R n w ↔ R' n w)) → s.Valid ext R v → s.Valid ext R' v) ?_ ?_
  · intro R R' v _ _ h; exact h
  · intro s ih R R' v hh hm h
    rw [Schema.valid_mk] at h ⊢
    by_cases hr : s.reference = []
    swap
    · have hr' : (s.map (Schema.Valid ext R')).reference ≠ [] := hr
      refine ⟨fun _ => ?_, fun h' => absurd h' hr, fun h' => absurd h' hr, fun h' => absurd h' hr⟩
      exact (hh s.reference (.here hr rfl)).1 (h.reference hr)
    -- a sub-schema applied to a smaller value
    have sub : ∀ c, s.Child c → ∀ w, sizeOf w < sizeOf v → c.Valid ext R w → c.Valid ext R' w := by
      intro c hc w hw
      have mh : ∀ n (x : Schema), x.MentionsHere n → x.Mentions n := by
        intro n x hx
        induction hx with
        | here h1 h2 => exact .here h1 h2
        | not h1 h2 _ ih => exact .child h1 (.not h2) ih
        | allOf h1 h2 _ ih => exact .child h1 (.allOf h2) ih
        | anyOf h1 h2 _ ih => exact .child h1 (.anyOf h2) ih
        | oneOf h1 h2 _ ih => exact .child h1 (.oneOf h2) ih
        | dependency h1 h2 _ ih => exact .child h1 (.dependency h2) ih
      exact ih c hc R R' w (fun n hn => hm n w (.child hr hc (mh n c hn)) hw)
        (fun n u hn hu => hm n u (.child hr hc hn) (Nat.lt_trans hu hw))
    have here : ∀ c, s.Child c → (∀ n, c.MentionsHere n → (Schema.mk s).MentionsHere n) →
        (c.Valid ext R v ↔ c.Valid ext R' v) := by
      intro c hc hin
      constructor
      · exact ih c hc R R' v (fun n hn => hh n (hin n hn)) (fun n u hn hu => hm n u (.child hr hc hn) hu)
      · exact ih c hc R' R v (fun n hn => (hh n (hin n hn)).symm) (fun n u hn hu => (hm n u (.child hr hc hn) hu).symm)
    have hc := h.combos hr
    have hv := h.value hr
    refine ⟨fun h' => absurd hr h', fun _ => ⟨?_, ?_, ?_, ?_⟩, h.type, fun _ => ⟨hv.enum, ?_, ?_, ?_, ?_⟩⟩
    · intro p hp hpv
      simp only [SchemaF.map, Option.map_eq_some_iff] at hp
      obtain ⟨x, hx, rfl⟩ := hp
      exact hc.not _ (by simp [SchemaF.map, hx]) ((here x (.not hx) (fun n hn => .not hr hx hn)).2 hpv)
    · intro p hp
      simp only [SchemaF.map, List.mem_map] at hp
      obtain ⟨x, hx, rfl⟩ := hp
      exact (here x (.allOf hx) (fun n hn => .allOf hr hx hn)).1 (hc.allOf _ (by simpa [SchemaF.map] using ⟨x, hx, rfl⟩))
    · intro hne
      obtain ⟨p, hp, hpv⟩ := hc.anyOf (by simpa [SchemaF.map] using hne)
      simp only [SchemaF.map, List.mem_map] at hp
      obtain ⟨x, hx, rfl⟩ := hp
      exact ⟨_, by simp only [SchemaF.map, List.mem_map]; exact ⟨x, hx, rfl⟩,
        (here x (.anyOf hx) (fun n hn => .anyOf hr hx hn)).1 hpv⟩
    · intro hne
      obtain ⟨i, p, hp, hpv, hu⟩ := hc.oneOf (by simpa [SchemaF.map] using hne)
      simp only [SchemaF.map, List.getElem?_map, Option.map_eq_some_iff] at hp hu ⊢
      obtain ⟨x, hx, rfl⟩ := hp
      have hxm := List.mem_of_getElem? hx
      refine ⟨i, _, ⟨x, hx, rfl⟩, (here x (.oneOf hxm) (fun n hn => .oneOf hr hxm hn)).1 hpv, ?_⟩
      rintro j q ⟨y, hy, rfl⟩ hq
      have hym := List.mem_of_getElem? hy
      exact hu j _ ⟨y, hy, rfl⟩ ((here y (.oneOf hym) (fun n hn => .oneOf hr hym hn)).2 hq)
    · intro f hf
      have := hv.number f hf
      exact ⟨this.minimum, this.exclMin, this.maximum, this.exclMax, this.multipleOf⟩
    · intro t ht
      have := hv.string t ht
      exact ⟨this.minLength, this.maxLength, this.pattern, this.format⟩
    · intro xs hxs
      have ha := hv.array xs hxs
      have hsz : ∀ x ∈ xs, sizeOf x < sizeOf v := fun x hx => by rw [hxs]; exact sizeOf_elem hx
      refine ⟨ha.minItems, ha.maxItems, ha.unique, ?_, ?_, ?_, ?_⟩
      · intro p hp x hx
        cases hi : s.items with
        | nil => simp [SchemaF.map, hi, ItemSpec.map] at hp
        | tuple l => simp [SchemaF.map, hi, ItemSpec.map] at hp
        | list l =>
          have hp' : ItemSpec.list (l.map (Schema.Valid ext R')) = .list [p] := by
            simpa [SchemaF.map, hi, ItemSpec.map] using hp
          match l, hi, hp' with
          | [y], hi, hp' =>
            simp only [List.map_cons, List.map_nil, ItemSpec.list.injEq, List.cons.injEq, and_true] at hp'
            subst hp'
            exact sub y (.list hi (by simp)) x (hsz x hx) (ha.items _ (by simp [SchemaF.map, hi, ItemSpec.map]) x hx)
          | [], hi, hp' => simp at hp'
          | _ :: _ :: _, hi, hp' => simp at hp'
      · intro l hl i p x hp hx
        cases hi : s.items with
        | nil => simp [SchemaF.map, hi, ItemSpec.map] at hl
        | list l => simp [SchemaF.map, hi, ItemSpec.map] at hl
        | tuple l' =>
          simp only [SchemaF.map, hi, ItemSpec.map, ItemSpec.tuple.injEq] at hl
          subst hl
          simp only [List.getElem?_map, Option.map_eq_some_iff] at hp
          obtain ⟨y, hy, rfl⟩ := hp
          refine sub y (.tuple hi (List.mem_of_getElem? hy)) x (hsz x (List.mem_of_getElem? hx)) ?_
          exact ha.tuple (l'.map (Schema.Valid ext R)) (by simp only [SchemaF.map, hi, ItemSpec.map]) i _ x (by simp [hy]) hx
      · intro l hl hn
        cases hi : s.items with
        | nil => simp [SchemaF.map, hi, ItemSpec.map] at hl
        | list l => simp [SchemaF.map, hi, ItemSpec.map] at hl
        | tuple l' =>
          simp only [SchemaF.map, hi, ItemSpec.map, ItemSpec.tuple.injEq] at hl
          subst hl
          have := ha.additionalNone (l'.map (Schema.Valid ext R)) (by simp only [SchemaF.map, hi, ItemSpec.map]) (by
            cases hx : s.additionalItems with
            | nil => simp [SchemaF.map, hx, Extra.map]
            | allow => simp [SchemaF.map, hx, Extra.map] at hn
            | schema => simp [SchemaF.map, hx, Extra.map] at hn)
          simpa using this
      · intro l p hl hp i x hi hx
        cases hit : s.items with
        | nil => simp [SchemaF.map, hit, ItemSpec.map] at hl
        | list l => simp [SchemaF.map, hit, ItemSpec.map] at hl
        | tuple l' =>
          simp only [SchemaF.map, hit, ItemSpec.map, ItemSpec.tuple.injEq] at hl
          subst hl
          cases hxx : s.additionalItems with
          | nil => simp [SchemaF.map, hxx, Extra.map] at hp
          | allow => simp [SchemaF.map, hxx, Extra.map] at hp
          | schema y =>
            simp only [SchemaF.map, hxx, Extra.map, Extra.schema.injEq] at hp
            subst hp
            refine sub y (.additionalItems hxx) x (hsz x (List.mem_of_getElem? hx)) ?_
            exact ha.additional (l'.map (Schema.Valid ext R)) _ (by simp only [SchemaF.map, hit, ItemSpec.map])
              (by simp only [SchemaF.map, hxx, Extra.map]) i x (by simpa using hi) hx
    · intro kvs hkvs
      have ho := hv.object kvs hkvs
      have hsz : ∀ k x, (k, x) ∈ kvs → sizeOf x < sizeOf v := fun k x hx => by rw [hkvs]; exact sizeOf_prop hx
      have hprop : ∀ k, (∃ p, (k, p) ∈ (s.map (Schema.Valid ext R)).properties) ↔
          ∃ p, (k, p) ∈ (s.map (Schema.Valid ext R')).properties := by
        intro k; simp [SchemaF.map]
      have hpat : ∀ k, (∃ id src p, (id, src, p) ∈ (s.map (Schema.Valid ext R)).patternProps ∧ ext.reMatch src k = true) ↔
          ∃ id src p, (id, src, p) ∈ (s.map (Schema.Valid ext R')).patternProps ∧ ext.reMatch src k = true := by
        intro k; simp [SchemaF.map]
      refine ⟨ho.required, ho.minProps, ho.maxProps, ?_, ?_, ?_, ?_, ho.depNames, ?_⟩
      · intro k p x hp hx
        simp only [SchemaF.map, List.mem_map] at hp
        obtain ⟨⟨k', y⟩, hy, he⟩ := hp
        cases he
        refine sub y (.property hy) x (hsz _ x hx) (ho.properties k' _ x ?_ hx)
        simp only [SchemaF.map, List.mem_map]
        exact ⟨_, hy, rfl⟩
      · intro id src p k x hp hx hmt
        simp only [SchemaF.map, List.mem_map] at hp
        obtain ⟨⟨id', src', y⟩, hy, he⟩ := hp
        cases he
        refine sub y (.patternProp hy) x (hsz _ x hx) (ho.patterns id' src' _ k x ?_ hx hmt)
        simp only [SchemaF.map, List.mem_map]
        exact ⟨_, hy, rfl⟩
      · intro hn k hk
        rw [← hprop, ← hpat]
        refine ho.additionalNone ?_ k hk
        cases hx : s.additionalProps with
        | nil => simp [SchemaF.map, hx, Extra.map]
        | allow => simp [SchemaF.map, hx, Extra.map] at hn
        | schema => simp [SchemaF.map, hx, Extra.map] at hn
      · intro p hp k x hx h1 h2
        rw [← hprop] at h1
        rw [← hpat] at h2
        cases hxx : s.additionalProps with
        | nil => simp [SchemaF.map, hxx, Extra.map] at hp
        | allow => simp [SchemaF.map, hxx, Extra.map] at hp
        | schema y =>
          simp only [SchemaF.map, hxx, Extra.map, Extra.schema.injEq] at hp
          subst hp
          exact sub y (.additionalProps hxx) x (hsz _ x hx)
            (ho.additional _ (by simp only [SchemaF.map, hxx, Extra.map]) k x hx h1 h2)
      · intro k p hp hk
        simp only [SchemaF.map, List.mem_map] at hp
        obtain ⟨⟨k', y⟩, hy, he⟩ := hp
        cases he
        refine (here y (.dependency hy) (fun n hn => .dependency hr hy hn)).1 (ho.depSchemas k' _ ?_ hk)
        simp only [SchemaF.map, List.mem_map]
        exact ⟨_, hy, rfl⟩

theorem valid_congr (s : Schema) (R R' : GoStr → GoVal → Prop) (v : GoVal)
    (hh : ∀ n, s.MentionsHere n → (R n v ↔ R' n v))
    (hm : ∀ n w, s.Mentions n → sizeOf w < sizeOf v → (R n w ↔ R' n w)) : s.Valid ext R v ↔ s.Valid ext R' v :=
  ⟨valid_imp s R R' v hh hm, valid_imp s R' R v (fun n h => (hh n h).symm) (fun n w h h' => (hm n w h h').symm)⟩

theorem Schema.MentionsHere.mentions {n : GoStr} {x : Schema} (hx : x.MentionsHere n) : x.Mentions n := by
  induction hx with
  | here h1 h2 => exact .here h1 h2
  | not h1 h2 _ ih => exact .child h1 (.not h2) ih
  | allOf h1 h2 _ ih => exact .child h1 (.allOf h2) ih
  | anyOf h1 h2 _ ih => exact .child h1 (.anyOf h2) ih
  | oneOf h1 h2 _ ih => exact .child h1 (.oneOf h2) ih
  | dependency h1 h2 _ ih => exact .child h1 (.dependency h2) ih

theorem RefersTo.unique {resolve : Resolver} {s : Schema} {n : GoStr} {s1 s2 : Schema} (h1 : RefersTo resolve s n s1)
    (h2 : RefersTo resolve s n s2) : s1 = s2 := by
  cases h1 with
  | root =>
    cases h2 with
    | root => rfl
    | resolved h => exact absurd rfl h
  | resolved h e =>
    cases h2 with
    | root => exact absurd rfl h
    | resolved h' e' => rw [e] at e'; exact Except.ok.inj e'

/-- Smaller value, or the same value and a reference met without descending. -/
theorem meaning_wf {resolve : Resolver} {s : Schema} (hg : Grounded resolve s) :
    WellFounded (Prod.Lex (fun a b : GoVal => sizeOf a < sizeOf b)
      (fun k n : GoStr => ∃ s1, RefersTo resolve s n s1 ∧ s1.MentionsHere k)) :=
  WellFounded.prod_lex (InvImage.wf sizeOf Nat.lt_wfRel.wf) hg

open Classical in
/-- Grounded references have a meaning … -/
theorem meaning_exists (ext : Ext) {resolve : Resolver} {s : Schema} (hg : Grounded resolve s) :
    ∃ R, Meaning ext resolve s R := by
  let F : (p : GoVal × GoStr) → ((q : GoVal × GoStr) → Prod.Lex (fun a b : GoVal => sizeOf a < sizeOf b)
      (fun k n : GoStr => ∃ s1, RefersTo resolve s n s1 ∧ s1.MentionsHere k) q p → Prop) → Prop := fun p r =>
    ∃ s1, RefersTo resolve s p.2 s1 ∧ s1.Valid ext (fun n w => if h : _ then r (w, n) h else False) p.1
  let R : GoStr → GoVal → Prop := fun n v => (meaning_wf hg).fix F (v, n)
  refine ⟨R, fun n s1 _ hs1 v => ?_⟩
  have hfix : R n v ↔ ∃ s1, RefersTo resolve s n s1 ∧ s1.Valid ext (fun k w =>
      if _ : Prod.Lex (fun a b : GoVal => sizeOf a < sizeOf b)
        (fun k n : GoStr => ∃ s1, RefersTo resolve s n s1 ∧ s1.MentionsHere k) (w, k) (v, n) then R k w else False) v := by
    show (meaning_wf hg).fix F (v, n) ↔ _
    rw [WellFounded.fix_eq]
  rw [hfix]
  constructor
  · rintro ⟨s2, hs2, hv⟩
    rw [hs2.unique hs1] at hv
    refine (valid_congr s1 _ _ v (fun k hk => ?_) (fun k w _ hw => ?_)).1 hv
    · rw [dif_pos (.right _ ⟨s1, hs1, hk⟩)]
    · rw [dif_pos (.left _ _ hw)]
  · intro hv
    refine ⟨s1, hs1, (valid_congr s1 _ _ v (fun k hk => ?_) (fun k w _ hw => ?_)).2 hv⟩
    · rw [dif_pos (.right _ ⟨s1, hs1, hk⟩)]
    · rw [dif_pos (.left _ _ hw)]

/-- … and only one. -/
theorem meaning_unique {resolve : Resolver} {s : Schema} (hg : Grounded resolve s)
    (hd : ∀ n, Reaches resolve s n → ∃ s1, RefersTo resolve s n s1) {R R' : GoStr → GoVal → Prop}
    (h : Meaning ext resolve s R) (h' : Meaning ext resolve s R') :
    ∀ p : GoVal × GoStr, Reaches resolve s p.2 → (R p.2 p.1 ↔ R' p.2 p.1) := by
  intro p
  induction p using (meaning_wf hg).induction with
  | _ p ih =>
    obtain ⟨v, n⟩ := p
    intro hr
    obtain ⟨s1, hs1⟩ := hd n hr
    simp only
    rw [h n s1 hr hs1 v, h' n s1 hr hs1 v]
    refine valid_congr s1 _ _ v (fun k hk => ?_) (fun k w hk hw => ?_)
    · exact ih (v, k) (.right _ ⟨s1, hs1, hk⟩) (.step hr hs1 hk.mentions)
    · exact ih (w, k) (.left _ _ hw) (.step hr hs1 hk)

end Jsval
