import Verif.Spec.Shows
import Verif.Lemmas.HooksSim
import Verif.Props.Structs
import Verif.Lemmas.EmbedSet
/-!
# The accessors of the validator on structs and on the maps they stand for
-/
namespace Jsval
variable {ext : Ext} {env : Env} {K : Role}

theorem mem_ainsert_iff {β : Type} {k p : GoStr} {y y' : β} {kws : List (GoStr × β)} (hn : (kws.map (·.1)).Nodup) :
    (k, y) ∈ ainsert p y' kws ↔ (k = p ∧ y = y') ∨ (k ≠ p ∧ (k, y) ∈ kws) := by
  rw [← alookup_iff_mem (nodup_ainsert hn), alookup_ainsert]
  by_cases h : k = p
  · simp [h, eq_comm]
  · simp [h, alookup_iff_mem hn]

theorem flatStruct_congr {fs fs' : List (Field × GoVal)} (he : fs'.map (·.1) = fs.map (·.1)) (h : FlatStruct fs) : FlatStruct fs' := by
  have h1 := flatFields_congr he h.flat
  refine ⟨h1.noEmb, h1.nodup, ?_⟩
  have e : ∀ l : List (Field × GoVal), l.filterMap (fun p => jsonNameSpec p.1) = (l.map (·.1)).filterMap jsonNameSpec := fun l => by
    rw [List.filterMap_map]; rfl
  rw [e, he, ← e]
  exact h.jsonNames

theorem FlatStruct.field_unique {fs : List (Field × GoVal)} (h : FlatStruct fs) {f g : Field} {x z : GoVal} {k : GoStr} (hf : (f, x) ∈ fs)
    (hg : (g, z) ∈ fs) (h1 : jsonNameSpec f = some k) (h2 : jsonNameSpec g = some k) : f = g ∧ x = z := by
  have a := (fieldVal_spec h (n := f.name) (v := x)).2 ⟨f, hf, rfl, h1⟩
  have b := (fieldVal_spec h (n := g.name) (v := z)).2 ⟨g, hg, rfl, h2⟩
  rw [a] at b
  simp only [Option.some.injEq, Prod.mk.injEq] at b
  have := nodup_field_eq h.goNames hf hg b.1
  cases this
  exact ⟨rfl, rfl⟩

theorem mem_setF {fn : GoStr} {x' : GoVal} {fs : List (Field × GoVal)} {g : Field} {z : GoVal} :
    (g, z) ∈ setF fn x' fs ↔ (g.name = fn ∧ z = x' ∧ ∃ z0, (g, z0) ∈ fs) ∨ (g.name ≠ fn ∧ (g, z) ∈ fs) := by
  unfold setF
  rw [List.mem_map]
  constructor
  · rintro ⟨⟨g', z'⟩, h, e⟩
    split at e
    · rename_i hn
      cases e
      exact Or.inl ⟨hn, rfl, z', h⟩
    · rename_i hn
      cases e
      exact Or.inr ⟨hn, h⟩
  · rintro (⟨rfl, rfl, z0, h⟩ | ⟨hn, h⟩)
    · exact ⟨(g, z0), h, by simp⟩
    · exact ⟨(g, z), h, by simp [hn]⟩

theorem fieldContent_plain {x : GoVal} (h : ¬ HoldsMaybe x) : fieldContent x = some x := by
  unfold fieldContent
  split
  · exact absurd (.val _ _) h
  · exact absurd (.ptr _ _) h
  · rfl

theorem fieldView_plain {x : GoVal} (h : ¬ HoldsMaybe x) : fieldView x = .present x true := by
  unfold fieldView
  split
  · exact absurd (.val _ _) h
  · exact absurd (.ptr _ _) h
  · rfl

theorem fieldView_maybe {x y : GoVal} (h : HoldsMaybe x) (hc : fieldContent x = some y) : fieldView x = .present y false := by
  cases h with
  | val b p =>
    cases b
    · cases hc
    · cases hc; rfl
  | ptr b p =>
    cases b
    · cases hc
    · cases hc; rfl

theorem fieldView_unset {x : GoVal} (hc : fieldContent x = none) : fieldView x = .absent := by
  unfold fieldContent at hc
  split at hc
  · rename_i b m; cases b
    · rfl
    · cases hc
  · rename_i b m; cases b
    · rfl
    · cases hc
  · cases hc

theorem LeafFor.right {v w : GoVal} (h : LeafFor K v w) : IsLeaf w := by
  induction h with
  | same _ h => exact h
  | behind _ _ _ _ _ ih => exact ih
  | _ => exact .scalar (by constructor)

theorem IsLeaf.notMap {n : Bool} {kws : List (GoStr × GoVal)} (h : IsLeaf (.map n kws)) : False := by
  cases h with
  | scalar h => cases h

theorem IsLeaf.notSlice {n : Bool} {xs : List GoVal} (h : IsLeaf (.slice n xs)) : False := by
  cases h with
  | scalar h => cases h

theorem IsLeaf.notMaybe {v : GoVal} (h : IsLeaf v) : ¬ HoldsMaybe v := by
  intro hm
  cases hm with
  | val => cases h with | scalar h => cases h
  | ptr =>
    cases h with
    | scalar h => cases h
    | ptr h => cases h

theorem LeafFor.notMaybe {v w : GoVal} (h : LeafFor K v w) : ¬ HoldsMaybe v := by
  cases h with
  | same _ h => exact h.notMaybe
  | behind x y _ hx _ =>
    intro hm
    cases hm
    rcases hx with h | h <;> cases h
  | _ => intro hm; cases hm

theorem takes_stored {x dv : GoVal} (h : Takes ext K x dv) :
    ∃ x' y, stored ext true x dv = .ok x' ∧ HoldsMaybe x' ∧ fieldContent x' = some y ∧ LeafFor K y dv := by
  cases h with
  | val m _ y h hn =>
    obtain ⟨m', h1, h2, -⟩ := stored_fills ext (w := false) h
    exact ⟨_, y, h1, .val _ _, congrArg some h2, hn⟩
  | ptr m _ y h hn =>
    obtain ⟨⟨v', p'⟩, h3, h4, h5, -⟩ := C52_round_trip ext ⟨false, m⟩ dv y h
    have : v' = true := h4
    subst this
    refine ⟨.ptr (some (.maybe true p')), y, ?_, .ptr _ _, congrArg some h5, hn⟩
    have hnn : dv ≠ .nil := by
      rintro rfl
      generalize m.kind = k at h
      cases h
    cases dv <;> first | exact absurd rfl hnn | simp only [stored, h3]

/-! ## Structs -/

theorem ShownBy.field {fs : List (Field × GoVal)} {kws : List (GoStr × GoVal)} (h : ShownBy ext env K fs kws) {k : GoStr} {y : GoVal} (hy : (k, y) ∈ kws) :
    ∃ f x, (f, x) ∈ unembed fs ∧ jsonNameSpec f = some k ∧ ((¬ HoldsMaybe x) ∨ (HoldsMaybe x ∧ K.LooksInto ext k ∧ ∃ z, fieldContent x = some z ∧ LeafFor (K.prop ext env k) z y)) := by
  obtain ⟨f, x, z, h1, h2, h3⟩ := (h.keys k).1 (List.mem_map.2 ⟨_, hy, rfl⟩)
  refine ⟨f, x, h1, h2, ?_⟩
  by_cases hm : HoldsMaybe x
  · obtain ⟨m1, m2⟩ := h.maybes f x k h1 h2 hm
    obtain ⟨z', m3, m4⟩ := m2 z h3
    have e1 := alookup_of_mem h.nodup hy
    rw [alookup_of_mem h.nodup m4] at e1
    cases e1
    exact Or.inr ⟨hm, m1, z, h3, m3⟩
  · exact Or.inl hm

theorem ShownBy.update {fs : List (Field × GoVal)} {kws : List (GoStr × GoVal)} (h : ShownBy ext env K fs kws) {f : Field} {x x' y' y0 : GoVal} {p : GoStr}
    (hf : (f, x) ∈ unembed fs) (hp : jsonNameSpec f = some p) (hc : fieldContent x' = some y0) (hm : HoldsMaybe x' → K.LooksInto ext p ∧ LeafFor (K.prop ext env p) y0 y') :
    ShownBy ext env K (setField f.name x' fs) (ainsert p y' kws) := by
  obtain ⟨hset, hmer⟩ := setField_merged h.merges hf x'
  have hflat := hmer.flat
  rw [hset] at hflat
  have hin : (f, x') ∈ setF f.name x' (unembed fs) := mem_setF.2 (Or.inl ⟨rfl, rfl, x, hf⟩)
  have hother : ∀ {g z k}, (g, z) ∈ setF f.name x' (unembed fs) → jsonNameSpec g = some k → (k = p ∧ g = f ∧ z = x') ∨ (k ≠ p ∧ (g, z) ∈ unembed fs) := by
    intro g z k hg hk
    by_cases hkp : k = p
    · subst hkp
      obtain ⟨rfl, rfl⟩ := hflat.field_unique hin hg hp hk
      exact Or.inl ⟨rfl, rfl, rfl⟩
    · rcases mem_setF.1 hg with ⟨h1, -, z0, h3⟩ | ⟨-, h1⟩
      · have := nodup_field_eq h.merges.flat.goNames hf h3 h1.symm
        cases this
        rw [hp] at hk; cases hk
        exact absurd rfl hkp
      · exact Or.inr ⟨hkp, h1⟩
  refine ⟨hmer, nodup_ainsert h.nodup, fun k => ?_, fun g z k hg hk hz => ?_⟩ <;> rw [hset] at *
  · rw [mem_keys_ainsert, h.keys]
    constructor
    · rintro (rfl | ⟨g, z, y, h1, h2, h3⟩)
      · exact ⟨f, x', y0, hin, hp, hc⟩
      · by_cases hkp : k = p
        · subst hkp; exact ⟨f, x', y0, hin, hp, hc⟩
        · refine ⟨g, z, y, mem_setF.2 (Or.inr ⟨fun e => ?_, h1⟩), h2, h3⟩
          have := nodup_field_eq h.merges.flat.goNames h1 hf e
          cases this
          rw [hp] at h2; cases h2
          exact hkp rfl
    · rintro ⟨g, z, y, h1, h2, h3⟩
      rcases hother h1 h2 with ⟨h4, -⟩ | ⟨-, h4⟩
      · exact Or.inl h4
      · exact Or.inr ⟨g, z, y, h4, h2, h3⟩
  · rcases hother hg hk with ⟨rfl, rfl, rfl⟩ | ⟨hne, h4⟩
    · obtain ⟨m1, m2⟩ := hm hz
      refine ⟨m1, fun y hy => ?_⟩
      rw [hc] at hy; cases hy
      exact ⟨_, m2, (mem_ainsert_iff h.nodup).2 (Or.inl ⟨rfl, rfl⟩)⟩
    · obtain ⟨m1, m2⟩ := h.maybes g z k h4 hk hz
      refine ⟨m1, fun y hy => ?_⟩
      obtain ⟨z', m3, m4⟩ := m2 y hy
      exact ⟨z', m3, (mem_ainsert_iff h.nodup).2 (Or.inr ⟨hne, m4⟩)⟩

theorem kids_update {Rel : GoStr → GoVal → GoVal → Prop} {fs : List (Field × GoVal)} {kws : List (GoStr × GoVal)} (h : ShownBy ext env K fs kws)
    (hk : ∀ f x k y, (f, x) ∈ unembed fs → jsonNameSpec f = some k → ¬ HoldsMaybe x → (k, y) ∈ kws → Rel k x y)
    {f : Field} {x x' y' : GoVal} {p : GoStr} (hf : (f, x) ∈ unembed fs) (hp : jsonNameSpec f = some p) (hr : ¬ HoldsMaybe x' → Rel p x' y') :
    ∀ g z k y, (g, z) ∈ unembed (setField f.name x' fs) → jsonNameSpec g = some k → ¬ HoldsMaybe z → (k, y) ∈ ainsert p y' kws → Rel k z y := by
  intro g z k y hg hgk hz hy
  rw [(setField_merged h.merges hf x').1] at hg
  rcases mem_setF.1 hg with ⟨h1, rfl, z0, h3⟩ | ⟨hne, h1⟩
  · have := nodup_field_eq h.merges.flat.goNames hf h3 h1.symm
    cases this
    rw [hp] at hgk; cases hgk
    rcases (mem_ainsert_iff h.nodup).1 hy with ⟨-, rfl⟩ | ⟨h4, -⟩
    · exact hr hz
    · exact absurd rfl h4
  · rcases (mem_ainsert_iff h.nodup).1 hy with ⟨rfl, rfl⟩ | ⟨-, h4⟩
    · exact absurd (congrArg Field.name (h.merges.flat.field_unique h1 hf hgk hp).1) hne
    · exact hk g z k y h1 hgk hz h4

/-- The accessors on a struct. -/
theorem ShownBy.names {fs : List (Field × GoVal)} {kws : List (GoStr × GoVal)} (h : ShownBy ext env K fs kws) :
    ∃ l, getPropNames (some (.struct fs)) = .ok l ∧ l.Perm (kws.map (·.1)) := by
  obtain ⟨names, h1, h2, h3⟩ := names_merged h.merges
  refine ⟨names, by show (match structPropNames fs with | .ok l => Except.ok l | .error a => .error (Stop.abort a)) = _; rw [h1], (List.perm_ext_iff_of_nodup h2 h.nodup).2 fun k => ?_⟩
  rw [h3, h.keys]

theorem ShownBy.absent {fs : List (Field × GoVal)} {kws : List (GoStr × GoVal)} (h : ShownBy ext env K fs kws) {p : GoStr} (hp : alookup p kws = none) :
    viewProp (some (.struct fs)) p = .ok .absent := by
  rw [viewProp_merged h.merges]
  cases hv : fieldVal p (unembed fs) with
  | none => rfl
  | some nv =>
    obtain ⟨n, v⟩ := nv
    obtain ⟨f, g1, -, g3⟩ := (fieldVal_spec h.merges.flat).1 hv
    simp only [Except.ok.injEq]
    refine fieldView_unset ?_
    cases hc : fieldContent v with
    | none => rfl
    | some y => exact absurd ((h.keys p).2 ⟨f, v, y, g1, g3, hc⟩) (alookup_eq_none.1 hp)

/-! ## Values that stand for maps -/

theorem StandsFor.notMaybe {v w : GoVal} (h : StandsFor ext env K v w) : ¬ HoldsMaybe v := by
  intro hm
  cases h with
  | leaf _ _ _ h => exact h.notMaybe hm
  | _ => cases hm

section
variable {v : GoVal} {n : Bool} {kws : List (GoStr × GoVal)}

theorem StandsFor.nodup (h : StandsFor ext env K v (.map n kws)) : (kws.map (·.1)).Nodup := by
  cases h with
  | leaf _ _ _ h => exact h.right.notMap.elim
  | map _ _ _ _ _ h => exact h
  | struct _ _ _ h => exact h.nodup
  | ptr _ _ _ h => exact h.nodup

theorem StandsFor.names (h : StandsFor ext env K v (.map n kws)) :
    ∃ l, getPropNames (valueOf v).indirect = .ok l ∧ l.Perm (kws.map (·.1)) := by
  cases h with
  | leaf _ _ _ h => exact h.right.notMap.elim
  | map _ _ kvs _ h1 h2 h3 _ => exact ⟨kvs.map (·.1), rfl, (List.perm_ext_iff_of_nodup h1 h2).2 h3⟩
  | struct _ fs _ h => exact h.names
  | ptr _ fs _ h => exact h.names

theorem StandsFor.absent (h : StandsFor ext env K v (.map n kws)) {p : GoStr} (hp : alookup p kws = none) :
    viewProp (valueOf v).indirect p = .ok .absent := by
  cases h with
  | leaf _ _ _ h => exact h.right.notMap.elim
  | map _ _ kvs _ h1 h2 h3 _ =>
    rw [viewProp_ofMap]
    have : alookup p kvs = none := by rw [alookup_eq_none, h3, ← alookup_eq_none]; exact hp
    rw [this]
  | struct _ fs _ h => exact h.absent hp
  | ptr _ fs _ h => exact h.absent hp

theorem map_put {kvs kws : List (GoStr × GoVal)} (h1 : (kvs.map (·.1)).Nodup) (h2 : (kws.map (·.1)).Nodup)
    (h3 : ∀ k, k ∈ kvs.map (·.1) ↔ k ∈ kws.map (·.1)) (h4 : ∀ k x y, (k, x) ∈ kvs → (k, y) ∈ kws → StandsFor ext env (K.prop ext env k) x y) {p : GoStr} {x' y' : GoVal}
    (h : StandsFor ext env (K.prop ext env p) x' y') : StandsFor ext env K (.map n (ainsert p x' kvs)) (.map n (ainsert p y' kws)) := by
  refine .map _ n _ _ (nodup_ainsert h1) (nodup_ainsert h2) (fun k => by rw [mem_keys_ainsert, mem_keys_ainsert, h3]) fun k a b ha hb => ?_
  rcases (mem_ainsert_iff h1).1 ha with ⟨rfl, rfl⟩ | ⟨e1, e2⟩ <;> rcases (mem_ainsert_iff h2).1 hb with ⟨e3, rfl⟩ | ⟨e3, e4⟩
  · exact h
  · exact absurd rfl e3
  · exact absurd e3 e1
  · exact h4 k a b e2 e4

theorem map_lookup {kvs kws : List (GoStr × GoVal)} (h3 : ∀ k, k ∈ kvs.map (·.1) ↔ k ∈ kws.map (·.1)) {p : GoStr} {y : GoVal} (hy : alookup p kws = some y) :
    ∃ x, alookup p kvs = some x :=
  alookup_isSome.2 ((h3 p).2 (alookup_isSome.1 ⟨y, hy⟩))

theorem StandsFor.get (h : StandsFor ext env K v (.map n kws)) {p : GoStr} {y : GoVal} (hy : alookup p kws = some y) :
    ∃ x, getProp (valueOf v).indirect p = .ok (some x) ∧
      ((StandsFor ext env (K.prop ext env p) x y ∧ viewProp (valueOf v).indirect p = .ok (.present x true) ∧
        ∀ x' y', StandsFor ext env (K.prop ext env p) x' y' → StandsFor ext env K (putProp v p x') (.map n (ainsert p y' kws))) ∨
       (K.LooksInto ext p ∧ putProp v p x = v ∧ ∃ z, LeafFor (K.prop ext env p) z y ∧ viewProp (valueOf v).indirect p = .ok (.present z false))) := by
  have hym := alookup_mem hy
  cases h with
  | leaf _ _ _ h => exact h.right.notMap.elim
  | map _ _ kvs _ h1 h2 h3 h4 =>
    obtain ⟨x, hx⟩ := map_lookup h3 hy
    refine ⟨x, by rw [getProp_ofMap, hx], Or.inl ⟨h4 p x y (alookup_mem hx) hym, by rw [viewProp_ofMap, hx], fun x' y' h => ?_⟩⟩
    rw [putProp_ofMap]
    exact map_put h1 h2 h3 h4 h
  | struct _ fs _ hs hk hd =>
    obtain ⟨f, x, h1, h2, h3⟩ := hs.field hym
    have e2 := field_merged hs.merges h1 h2
    refine ⟨x, by show getProp (some (.struct fs)) p = _; rw [getProp_merged hs.merges, e2]; rfl, ?_⟩
    have hview : viewProp (valueOf (.struct fs)).indirect p = .ok (fieldView x) := by
      show viewProp (some (.struct fs)) p = _
      rw [viewProp_merged hs.merges, e2]
    have hput : ∀ z, putProp (.struct fs) p z = .struct (setField f.name z fs) := fun z => by
      show putAt (.struct fs) p z = _
      rw [putAt_merged hs.merges h1 h2]
    rcases h3 with h3 | ⟨h3, h6, z, h4, h5⟩
    · refine Or.inl ⟨hk f x p y h1 h2 h3 hym, by rw [hview, fieldView_plain h3], fun x' y' h => ?_⟩
      rw [hput]
      exact .struct _ _ _ (hs.update h1 h2 (fieldContent_plain h.notMaybe) fun hm => absurd hm h.notMaybe)
        (kids_update (Rel := fun k => StandsFor ext env (K.prop ext env k)) hs hk h1 h2 fun _ => h) fun q dv hq => mem_keys_ainsert.2 (Or.inr (hd q dv hq))
    · exact Or.inr ⟨h6, by rw [hput, setField_still hs.merges h1], z, h5, by rw [hview, fieldView_maybe h3 h4]⟩
  | ptr _ fs _ hs hk hd =>
    obtain ⟨f, x, h1, h2, h3⟩ := hs.field hym
    have e2 := field_merged hs.merges h1 h2
    refine ⟨x, by show getProp (some (.struct fs)) p = _; rw [getProp_merged hs.merges, e2]; rfl, ?_⟩
    have hview : viewProp (valueOf (.ptr (some (.struct fs)))).indirect p = .ok (fieldView x) := by
      show viewProp (some (.struct fs)) p = _
      rw [viewProp_merged hs.merges, e2]
    have hput : ∀ z, putProp (.ptr (some (.struct fs))) p z = .ptr (some (.struct (setField f.name z fs))) := fun z => by
      show GoVal.ptr (some (putAt (.struct fs) p z)) = _
      rw [putAt_merged hs.merges h1 h2]
    rcases h3 with h3 | ⟨h3, h6, z, h4, h5⟩
    · refine Or.inl ⟨hk f x p y h1 h2 h3 hym, by rw [hview, fieldView_plain h3], fun x' y' h => ?_⟩
      rw [hput]
      refine .ptr _ _ _ (hs.update h1 h2 (fieldContent_plain h.notMaybe) fun hm => absurd hm h.notMaybe)
        (kids_update (Rel := fun k => StandsFor ext env (K.prop ext env k)) hs hk h1 h2 fun _ => h) fun q dv hq hn => ?_
      have hn' := fun e => hn (mem_keys_ainsert.2 e)
      obtain ⟨g, z, g1, g2, g3⟩ := hd q dv hq fun e => hn' (Or.inr e)
      refine ⟨g, z, (setField_merged hs.merges h1 _).1 ▸ mem_setF.2 (Or.inr ⟨fun e => ?_, g1⟩), g2, g3⟩
      have := nodup_field_eq hs.merges.flat.goNames g1 h1 e
      cases this
      rw [h2] at g2; cases g2
      exact hn' (Or.inl rfl)
    · exact Or.inr ⟨h6, by rw [hput, setField_still hs.merges h1], z, h5, by rw [hview, fieldView_maybe h3 h4]⟩

theorem StandsFor.fill (h : StandsFor ext env K v (.map n kws)) {p : GoStr} {dv : GoVal} (hp : alookup p kws = none) (hD : K.Fills ext env p dv) (hs : IsScalar dv)
    (hnn : dv ≠ .nil) : (n = true → setProp ext v p dv = .error (.abort .panic)) ∧
    (n = false → ∃ v', setProp ext v p dv = .ok v' ∧ StandsFor ext env K v' (.map false (ainsert p dv kws))) := by
  cases h with
  | leaf _ _ _ h => exact h.right.notMap.elim
  | map _ _ kvs _ h1 h2 h3 h4 =>
    rw [setProp_ofMap n kvs p hs hnn]
    refine ⟨fun hn => by simp [hn], fun hn => ⟨.map false (ainsert p dv kvs), by simp [hn], ?_⟩⟩
    exact map_put h1 h2 h3 h4 (.leaf _ _ _ (.same _ (.scalar hs)))
  | struct _ fs _ hsh hk hd => exact absurd (hd p dv hD) (alookup_eq_none.1 hp)
  | ptr _ fs _ hsh hk hd =>
    refine ⟨fun h => (by cases h), fun _ => ?_⟩
    obtain ⟨f, x, h1, h2, h3⟩ := hd p dv hD (alookup_eq_none.1 hp)
    obtain ⟨x', y, g1, g2, g3, g4⟩ := takes_stored h3
    have k2 := setPropAt_merged ext true hsh.merges h1 h2 dv
    have hmx : HoldsMaybe x := by cases h3 <;> constructor
    have hM := (hsh.maybes f x p h1 h2 hmx).1
    refine ⟨.ptr (some (.struct (setField f.name x' fs))), ?_, ?_⟩
    · show (setPropRV ext true (.struct fs) p dv).map _ = _
      show (setPropAt ext true (.struct fs) p dv).map _ = _
      rw [k2, g1]
      rfl
    · refine .ptr _ _ _ (hsh.update h1 h2 g3 fun _ => ⟨hM, g4⟩) (kids_update (Rel := fun k => StandsFor ext env (K.prop ext env k)) hsh hk h1 h2 fun hm => absurd g2 hm) fun q dv' hq hn => ?_
      have hn' := fun e => hn (mem_keys_ainsert.2 e)
      obtain ⟨g, z, g1, g2, g3⟩ := hd q dv' hq fun e => hn' (Or.inr e)
      refine ⟨g, z, (setField_merged hsh.merges h1 _).1 ▸ mem_setF.2 (Or.inr ⟨fun e => ?_, g1⟩), g2, g3⟩
      have := nodup_field_eq hsh.merges.flat.goNames g1 h1 e
      cases this
      rw [h2] at g2; cases g2
      exact hn' (Or.inl rfl)

end
end Jsval
