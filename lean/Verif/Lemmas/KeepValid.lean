import Verif.Lemmas.SchemaKeep
import Verif.Lemmas.SchemaMeaning
/-!
# Valid documents stay valid
-/
namespace Jsval
variable {ext : Ext}

theorem Le.trans_le {a b c : F64} (h : F64.Le a b) (h' : F64.Le b c) : F64.Le a c := by
  obtain ⟨x, y, h1, h2, h3⟩ := h
  obtain ⟨y', z, h4, h5, h6⟩ := h'
  obtain rfl := Option.some.inj (h2.symm.trans h4)
  exact ⟨x, z, h1, h5, h3.trans h6⟩

theorem Le.trans_lt {a b c : F64} (h : F64.Le a b) (h' : F64.Lt b c) : F64.Lt a c := by
  obtain ⟨x, y, h1, h2, h3⟩ := h
  obtain ⟨y', z, h4, h5, h6⟩ := h'
  obtain rfl := Option.some.inj (h2.symm.trans h4)
  exact ⟨x, z, h1, h5, lt_of_le_of_lt h3 h6⟩

theorem Lt.trans_le {a b c : F64} (h : F64.Lt a b) (h' : F64.Le b c) : F64.Lt a c := by
  obtain ⟨x, y, h1, h2, h3⟩ := h
  obtain ⟨y', z, h4, h5, h6⟩ := h'
  obtain rfl := Option.some.inj (h2.symm.trans h4)
  exact ⟨x, z, h1, h5, lt_of_lt_of_le h3 h6⟩

/-- What is valid for a schema is valid for what is kept of it, if the same holds for references where they are met. -/
theorem valid_keep : ∀ (s : Schema) (R R' : GoStr → GoVal → Prop) (v : GoVal), s.Loosens → s.Keeps →
    (∀ n, s.keep.MentionsHere n → R n v → R' n v) →
    (∀ n w, s.keep.Mentions n → sizeOf w < sizeOf v → R n w → R' n w) → s.Valid ext R v → s.keep.Valid ext R' v := by
  refine Schema.ind (P := fun s => ∀ (R R' : GoStr → GoVal → Prop) (v : GoVal), s.Loosens → s.Keeps →
    (∀ n, s.keep.MentionsHere n → R n v → R' n v) →
    (∀ n w, s.keep.Mentions n → sizeOf w < sizeOf v → R n w → R' n w) → s.Valid ext R v → s.keep.Valid ext R' v) ?_ ?_
  · intro R R' v hl; cases hl
  · intro s ih R R' v hl hk hh hm h
    rw [Schema.keep_mk] at hh hm ⊢
    rw [Schema.valid_mk] at h ⊢
    by_cases hr : s.reference = []
    swap
    · refine ⟨fun _ => ?_, fun h' => absurd h' hr, fun h' => absurd h' hr, fun h' => absurd h' hr⟩
      exact hh s.reference (.here hr rfl) (h.reference hr)
    obtain ⟨hone, hmin, hmax, hlc⟩ : s.oneOf = [] ∧ (∀ f, s.minimum = some f → F64.Le (keepBound s.type f) f) ∧
        (∀ f, s.maximum = some f → F64.Le f (keepBound s.type f)) ∧ ∀ c, s.Child c → c.Loosens := by
      cases hl with
      | ref _ h => exact absurd hr h
      | node _ _ h1 h2 h3 h4 => exact ⟨h1, h2, h3, h4⟩
    obtain ⟨hkp, hkc⟩ : s.Keepable ∧ ∀ c, s.Child c → c.Keeps := by
      cases hk with
      | ref _ h => exact absurd hr h
      | node _ _ h h' => exact ⟨h, h'⟩
    have hkv : (s.map Schema.keep).keep.map (Schema.Valid ext R') = (s.map fun c => c.keep.Valid ext R').keep := by
      rw [SchemaF.keep_map, SchemaF.map_map]
    rw [hkv]
    -- a sub-schema applied to a smaller value
    have sub : ∀ c, s.Child c → (s.map Schema.keep).keep.Child c.keep → ∀ w, sizeOf w < sizeOf v → c.Valid ext R w → c.keep.Valid ext R' w := by
      intro c hc hc' w hw
      exact ih c hc R R' w (hlc c hc) (hkc c hc) (fun n hn => hm n w (.child hr hc' hn.mentions) hw)
        (fun n u hn hu => hm n u (.child hr hc' hn) (Nat.lt_trans hu hw))
    have here : ∀ c, s.Child c → (s.map Schema.keep).keep.Child c.keep →
        (∀ n, c.keep.MentionsHere n → (Schema.mk (s.map Schema.keep).keep).MentionsHere n) → c.Valid ext R v → c.keep.Valid ext R' v :=
      fun c hc hc' hin => ih c hc R R' v (hlc c hc) (hkc c hc) (fun n hn => hh n (hin n hn)) (fun n u hn hu => hm n u (.child hr hc' hn) hu)
    have hc := h.combos hr
    have hv := h.value hr
    refine ⟨fun h' => absurd hr h', fun _ => ⟨?_, ?_, ?_, ?_⟩, h.type, fun _ => ⟨?_, ?_, ?_, ?_, ?_⟩⟩
    · intro p hp
      simp [SchemaF.map, SchemaF.keep, hkp.not] at hp
    · intro p hp
      obtain ⟨x, hx, rfl⟩ := List.mem_map.1 (show p ∈ s.allOf.map fun c => c.keep.Valid ext R' from hp)
      exact here x (.allOf hx) (.allOf (List.mem_map.2 ⟨x, hx, rfl⟩)) (fun n hn => .allOf hr (List.mem_map.2 ⟨x, hx, rfl⟩) hn) (hc.allOf _ (List.mem_map.2 ⟨x, hx, rfl⟩))
    · intro hne
      obtain ⟨p, hp, hpv⟩ := hc.anyOf (by simpa [SchemaF.map, SchemaF.keep] using hne)
      obtain ⟨x, hx, rfl⟩ := List.mem_map.1 (show p ∈ s.anyOf.map (Schema.Valid ext R) from hp)
      exact ⟨_, List.mem_map.2 ⟨x, hx, rfl⟩, here x (.anyOf hx) (.anyOf (List.mem_map.2 ⟨x, hx, rfl⟩)) (fun n hn => .anyOf hr (List.mem_map.2 ⟨x, hx, rfl⟩) hn) hpv⟩
    · intro hne
      simp [SchemaF.map, SchemaF.keep, hone] at hne
    · intro hne
      have he : (s.map fun c => c.keep.Valid ext R').keep.enum = if .integer ∈ s.type then [] else s.enum := rfl
      rw [he] at hne ⊢
      split at hne
      · exact absurd rfl hne
      · rename_i hi; rw [if_neg hi]; exact hv.enum hne
    · intro f hf
      have hn := hv.number f hf
      refine ⟨fun m h => ?_, fun m h h' => ?_, fun m h => ?_, fun m h h' => ?_, fun m h => (by cases h)⟩ <;>
        obtain ⟨b, hb, rfl⟩ := Option.map_eq_some_iff.1 h
      · exact Le.trans_le (hmin b hb) (hn.minimum b hb)
      · exact Le.trans_lt (hmin b hb) (hn.exclMin b hb h')
      · exact Le.trans_le (hn.maximum b hb) (hmax b hb)
      · exact Lt.trans_le (hn.exclMax b hb h') (hmax b hb)
    · intro t ht
      have := hv.string t ht
      exact ⟨this.minLength, this.maxLength, this.pattern, this.format⟩
    · intro xs hxs
      have ha := hv.array xs hxs
      have hsz : ∀ x ∈ xs, sizeOf x < sizeOf v := fun x hx => by rw [hxs]; exact sizeOf_elem hx
      have hit : (s.map fun c => c.keep.Valid ext R').keep.items = s.items.map fun c => c.keep.Valid ext R' := rfl
      refine ⟨ha.minItems, ha.maxItems, ha.unique, ?_, ?_, ?_, ?_⟩
      · intro p hp x hx
        rw [hit] at hp
        cases hi : s.items with
        | nil => rw [hi] at hp; cases hp
        | tuple l => rw [hi] at hp; cases hp
        | list l =>
          rw [hi] at hp
          match l, hi, hp with
          | [y], hi, hp =>
            cases hp
            exact sub y (.list hi (by simp)) (.list (l := [y.keep]) (by simp [SchemaF.keep, SchemaF.map, hi, ItemSpec.map]) (by simp)) x (hsz x hx) (ha.items _ (by simp [SchemaF.map, hi, ItemSpec.map]) x hx)
      · intro l hl i p x hp hx
        rw [hit] at hl
        cases hi : s.items with
        | nil => rw [hi] at hl; cases hl
        | list l => rw [hi] at hl; cases hl
        | tuple l' =>
          rw [hi] at hl
          cases hl
          simp only [List.getElem?_map, Option.map_eq_some_iff] at hp
          obtain ⟨y, hy, rfl⟩ := hp
          refine sub y (.tuple hi (List.mem_of_getElem? hy)) (.tuple (l := l'.map Schema.keep) (by simp [SchemaF.keep, SchemaF.map, hi, ItemSpec.map]) (List.mem_map_of_mem (List.mem_of_getElem? hy))) x (hsz x (List.mem_of_getElem? hx)) ?_
          exact ha.tuple (l'.map (Schema.Valid ext R)) (by simp only [SchemaF.map, hi, ItemSpec.map]) i _ x (by simp [hy]) hx
      · intro l hl hn
        simp only [SchemaF.keep] at hn
        split at hn
        · cases hn
        · rename_i hne; exact absurd hn hne
      · intro l p hl hp i x hi hx
        rw [hit] at hl
        cases hit' : s.items with
        | nil => rw [hit'] at hl; cases hl
        | list l => rw [hit'] at hl; cases hl
        | tuple l' =>
          rw [hit'] at hl
          cases hl
          cases hxx : s.additionalItems with
          | nil => simp [SchemaF.map, SchemaF.keep, hxx, Extra.map] at hp
          | allow => simp [SchemaF.map, SchemaF.keep, hxx, Extra.map] at hp
          | schema y =>
            simp only [SchemaF.map, SchemaF.keep, hxx, Extra.map, Extra.schema.injEq] at hp
            subst hp
            refine sub y (.additionalItems hxx) (.additionalItems (by simp [SchemaF.keep, SchemaF.map, hxx, Extra.map])) x (hsz x (List.mem_of_getElem? hx)) ?_
            exact ha.additional (l'.map (Schema.Valid ext R)) _ (by simp only [SchemaF.map, hit', ItemSpec.map])
              (by simp only [SchemaF.map, hxx, Extra.map]) i x (by simpa using hi) hx
    · intro kvs hkvs
      have ho := hv.object kvs hkvs
      have hsz : ∀ k x, (k, x) ∈ kvs → sizeOf x < sizeOf v := fun k x hx => by rw [hkvs]; exact sizeOf_prop hx
      have hprop : ∀ k, (∃ p, (k, p) ∈ (s.map (Schema.Valid ext R)).properties) ↔
          ∃ p, (k, p) ∈ (s.map fun c => c.keep.Valid ext R').keep.properties := by
        intro k; simp [SchemaF.map, SchemaF.keep]
      have hpat : ∀ k, (∃ id src p, (id, src, p) ∈ (s.map (Schema.Valid ext R)).patternProps ∧ ext.reMatch src k = true) ↔
          ∃ id src p, (id, src, p) ∈ (s.map fun c => c.keep.Valid ext R').keep.patternProps ∧ ext.reMatch src k = true := by
        intro k; simp [SchemaF.map, SchemaF.keep]
      refine ⟨ho.required, fun n h => (by cases h), fun n h => (by cases h), ?_, ?_, ?_, ?_, ho.depNames, fun k p h => (by cases h)⟩
      · intro k p x hp hx
        obtain ⟨⟨k', y⟩, hy, he⟩ := List.mem_map.1 (show _ ∈ s.properties.map _ from hp)
        cases he
        exact sub y (.property hy) (.property (List.mem_map.2 ⟨_, hy, rfl⟩)) x (hsz _ x hx) (ho.properties k' _ x (List.mem_map.2 ⟨_, hy, rfl⟩) hx)
      · intro id src p k x hp hx hmt
        obtain ⟨⟨id', src', y⟩, hy, he⟩ := List.mem_map.1 (show _ ∈ s.patternProps.map _ from hp)
        cases he
        exact sub y (.patternProp hy) (.patternProp (List.mem_map.2 ⟨_, hy, rfl⟩)) x (hsz _ x hx) (ho.patterns id' src' _ k x (List.mem_map.2 ⟨_, hy, rfl⟩) hx hmt)
      · intro hn k hk
        rw [← hprop, ← hpat]
        refine ho.additionalNone ?_ k hk
        cases hx : s.additionalProps with
        | nil => simp [SchemaF.map, hx, Extra.map]
        | allow => simp [SchemaF.map, SchemaF.keep, hx, Extra.map] at hn
        | schema => simp [SchemaF.map, SchemaF.keep, hx, Extra.map] at hn
      · intro p hp k x hx h1 h2
        rw [← hprop] at h1
        rw [← hpat] at h2
        cases hxx : s.additionalProps with
        | nil => simp [SchemaF.map, SchemaF.keep, hxx, Extra.map] at hp
        | allow => simp [SchemaF.map, SchemaF.keep, hxx, Extra.map] at hp
        | schema y =>
          simp only [SchemaF.map, SchemaF.keep, hxx, Extra.map, Extra.schema.injEq] at hp
          subst hp
          exact sub y (.additionalProps hxx) (.additionalProps (by simp [SchemaF.keep, SchemaF.map, hxx, Extra.map])) x (hsz _ x hx)
            (ho.additional _ (by simp only [SchemaF.map, hxx, Extra.map]) k x hx h1 h2)

/-- … for the meanings of references. -/
theorem meaning_keep {resolve : Resolver} {s : Schema} (hg : Grounded resolve s)
    (hd : ∀ n, Reaches resolve s n → ∃ s1, RefersTo resolve s n s1)
    (hl : ∀ n s1, Reaches resolve s n → RefersTo resolve s n s1 → s1.Loosens ∧ s1.Keeps)
    {R R' : GoStr → GoVal → Prop} (h : Meaning ext resolve s R) (h' : Meaning ext resolve.keep s.keep R') :
    ∀ p : GoVal × GoStr, Reaches resolve.keep s.keep p.2 → R p.2 p.1 → R' p.2 p.1 := by
  intro p
  induction p using (meaning_wf hg).induction with
  | _ p ih =>
    obtain ⟨v, n⟩ := p
    intro hr
    have hr0 := reaches_keep hr
    obtain ⟨s1, hs1⟩ := hd n hr0
    have hs1' : RefersTo resolve.keep s.keep n s1.keep := refersTo_keep.2 ⟨s1, hs1, rfl⟩
    simp only
    rw [h n s1 hr0 hs1 v, h' n s1.keep hr hs1' v]
    obtain ⟨h1, h2⟩ := hl n s1 hr0 hs1
    refine valid_keep s1 _ _ v h1 h2 (fun k hk => ?_) (fun k w hk hw => ?_)
    · exact ih (v, k) (.right _ ⟨s1, hs1, mentionsHere_keep s1 hk⟩) (.step hr hs1' hk.mentions)
    · exact ih (w, k) (.left _ _ hw) (.step hr hs1' hk)

end Jsval
