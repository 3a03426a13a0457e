import Verif.Lemmas.SchemaArray
import Verif.Lemmas.Embed
/-!
# The constraint built for `type: object` decides the object keywords
-/
namespace Jsval
open Tracks
variable {ext : Ext} {cls : DocClass} {ρ : RefSem}

/-- A constraint together with the predicate it is to decide. -/
abbrev Labelled := Constraint × (GoVal → Prop)

theorem object_tracks {o : ObjC Labelled} (hw : o.Wf)
    (hch : ∀ d, o.Child d → Tracks ext (Doc cls) (denote ext ρ d.1) d.2)
    (hov : ∀ k, ∀ p ∈ o.patterns, ∀ q ∈ o.patterns, ext.reMatch p.2.1 k = true → ext.reMatch q.2.1 k = true → p = q) :
    Tracks ext (Doc cls) (denote ext ρ (.object (o.map (·.1))))
      (fun v => ∃ kvs, v = .map false kvs ∧ ObjRules ext o (fun d x => d.2 x) v kvs kvs) := by
  have hmap : (o.map (·.1)).map (denote ext ρ) = o.map (fun d => denote ext ρ d.1) := by
    unfold ObjC.map
    simp [Function.comp_def, Option.map_map]
  have hobj : (denote ext ρ (.object (o.map (·.1)))).val = objectV ext (o.map (fun d => denote ext ρ d.1)) := by
    rw [denote_object, hmap]
  have hdoc : ∀ v, Doc cls v → ∀ kvs, v = .map false kvs → (∀ x, (∃ k, (k, x) ∈ kvs) ∨ (∃ k, (k, x) ∈ kvs) ∨ x = v → Doc cls x) := by
    rintro v hv kvs rfl x hx
    cases hv with
    | obj _ hn hk hd =>
      rcases hx with ⟨k, hx⟩ | ⟨k, hx⟩ | rfl
      · exact hd k x hx
      · exact hd k x hx
      · exact .obj _ hn hk hd
  refine of_step (by simp) ⟨rfl, fun x hx => by simp [Constraint.enumOf] at hx⟩ (fun d hd => ?_) ?_ ?_
  · cases hd with
    | object hd =>
      obtain ⟨c, hc, rfl⟩ := (ObjC.map_child _ o).1 hd
      exact ⟨_, hch c hc⟩
  · intro σ v hv ho
    rw [hobj] at ho
    cases hv with
    | obj kvs hn hk hd =>
      have hv : Doc cls (.map false kvs) := .obj kvs hn hk hd
      refine ⟨kvs, rfl, ?_⟩
      have hrules := objectV_rules ext _ σ (.map false kvs hn) ((ObjC.map_wf _ o).2 hw)
        (fun d hd => by obtain ⟨c, h1, rfl⟩ := (ObjC.map_child _ o).1 hd; exact (hch c h1).readOnly)
        (fun p d hd _ => by obtain ⟨c, h1, rfl⟩ := (ObjC.map_mem_props _ o).1 hd; exact (hch c (.prop h1)).noDflt)
        (by
          intro k _ hkd p hp q hq hp' hq'
          simp only [ObjC.map, List.mem_map] at hp hq
          obtain ⟨p, hp, rfl⟩ := hp
          obtain ⟨q, hq, rfl⟩ := hq
          rw [hov k p hp q hq hp' hq']) ho
      rw [map_objRules] at hrules
      exact hrules.imp ext (fun c x hcc hx ⟨τ, hτ⟩ => (hch c hcc).ok τ x (hdoc _ hv kvs rfl x hx) hτ)
    | _ => simp [objectV, getPropNames, valueOf, RV.indirect, Stop.toRes] at ho
  · rintro σ v e hv he ⟨kvs, rfl, hr⟩
    rw [hobj] at he
    have hd := hdoc _ hv kvs rfl
    cases hv with
    | obj _ hn _ =>
      have hrules' : ObjRules ext (o.map (fun d => unabort (denote ext ρ d.1))) (fun c x => c.Accepts x) (.map false kvs) kvs kvs := by
        rw [map_objRules]
        refine hr.imp ext (fun c x hcc hx hacc τ => ?_)
        have herr := fun e => (hch c hcc).err τ x e (hd x hx)
        show ((unabort (denote ext ρ c.1)).val τ x).1 = .ok
        unfold unabort
        simp only
        rcases hs : (denote ext ρ c.1).val τ x with ⟨r, x'⟩
        rw [hs] at herr
        cases r with
        | ok => rfl
        | abort a => rfl
        | err e => exact absurd hacc (herr e rfl)
      have hok := objectV_of_rules ext (o.map (fun d => unabort (denote ext ρ d.1))) σ (.map false kvs hn) ((ObjC.map_wf _ o).2 hw)
        (fun d hd => by obtain ⟨c, h1, rfl⟩ := (ObjC.map_child _ o).1 hd; exact unabort_readOnly (hch c h1).readOnly)
        (fun p d hd _ => by
          obtain ⟨c, h1, rfl⟩ := (ObjC.map_mem_props _ o).1 hd
          unfold unabort
          have := (hch c (.prop h1)).noDflt
          cases hdc : (denote ext ρ c.1).dflt with
          | none => rfl
          | abort a => rfl
          | some dv => exact absurd hdc (this dv)) hrules'
      rw [objectV_below (A := fun _ => True) (f := fun d : Labelled => denote ext ρ d.1) o
        (fun c _ => below_unabort (denote ext ρ c.1)) σ _ (by rw [he]; exact Res.off_err), he] at hok
      cases hok

/-! ## Tables -/

theorem label_list {α β : Type _} {φ : α → β → Prop} : ∀ (l : List α), (∀ a ∈ l, ∃ b, φ a b) →
    ∃ l' : List (α × β), l'.map (·.1) = l ∧ ∀ q ∈ l', φ q.1 q.2
  | [], _ => ⟨[], rfl, by simp⟩
  | a :: l, h => by
    obtain ⟨b, hb⟩ := h a (by simp)
    obtain ⟨l', e, hl⟩ := label_list l (fun a h' => h a (by simp [h']))
    exact ⟨(a, b) :: l', by simp [e], fun q hq => by
      rcases List.mem_cons.1 hq with rfl | hq
      · exact hb
      · exact hl q hq⟩

theorem nodup_fst {α β : Type _} {l : List (α × β)} (h : (l.map (·.1)).Nodup) {a : α} {x y : β} (hx : (a, x) ∈ l)
    (hy : (a, y) ∈ l) : x = y := by
  have := List.inj_on_of_nodup_map h hx hy rfl
  exact (Prod.mk.inj this).2

theorem keys_foldl_ainsert {β : Type} : ∀ (cs acc : List (GoStr × β)) (k : GoStr),
    (k ∈ cs.map (·.1) ∨ k ∈ acc.map (·.1)) → k ∈ (cs.foldl (fun acc q => ainsert q.1 q.2 acc) acc).map (·.1)
  | [], acc, k, h => by simpa using h
  | q :: cs, acc, k, h => by
    rw [List.foldl_cons]
    refine keys_foldl_ainsert cs _ k ?_
    rw [mem_keys_ainsert]
    simp only [List.map_cons, List.mem_cons] at h
    tauto

theorem keys_patInsert {β : Type} {id : Nat} {src : GoStr} {c : β} : ∀ (l : List (Nat × GoStr × β)),
    (patInsert id src c l).map (·.1) = if id ∈ l.map (·.1) then l.map (·.1) else l.map (·.1) ++ [id]
  | [] => by simp [patInsert]
  | (i, s, c') :: l => by
    by_cases h : i = id
    · simp [patInsert, h]
    · have := keys_patInsert (id := id) (src := src) (c := c) l
      simp only [patInsert, h, if_false, List.map_cons, this, List.mem_cons, Ne.symm h, false_or]
      split <;> simp

theorem keys_foldl_patInsert {β : Type} : ∀ (cs acc : List (Nat × GoStr × β)) (k : Nat),
    (k ∈ cs.map (·.1) ∨ k ∈ acc.map (·.1)) →
      k ∈ (cs.foldl (fun acc q => patInsert q.1 q.2.1 q.2.2 acc) acc).map (·.1)
  | [], acc, k, h => by simpa using h
  | q :: cs, acc, k, h => by
    rw [List.foldl_cons]
    refine keys_foldl_patInsert cs _ k ?_
    rw [keys_patInsert]
    simp only [List.map_cons, List.mem_cons] at h
    split
    · rename_i hq
      rcases h with (rfl | h) | h
      · exact Or.inr hq
      · exact Or.inl h
      · exact Or.inr h
    · rw [List.mem_append, List.mem_singleton]; tauto

theorem nodup_foldl_patInsert {β : Type} : ∀ (cs acc : List (Nat × GoStr × β)), (acc.map (·.1)).Nodup →
    ((cs.foldl (fun acc q => patInsert q.1 q.2.1 q.2.2 acc) acc).map (·.1)).Nodup
  | [], acc, h => h
  | q :: cs, acc, h => by
    rw [List.foldl_cons]
    refine nodup_foldl_patInsert cs _ ?_
    rw [keys_patInsert]
    split
    · exact h
    · rename_i hk
      rw [List.nodup_append]
      refine ⟨h, by simp, ?_⟩
      intro a ha b hb
      simp at hb; subst hb
      rintro rfl; exact hk ha

variable {lib : SchemaLib} {m : Nat} {formats : List GoStr} {V : Schema → GoVal → Prop}

theorem named_label {l : List (GoStr × Schema)} (hn : (l.map (·.1)).Nodup) {R : List GoStr} {k : Nat}
    {cs : List (GoStr × Constraint)}
    (hN : Named (fun a _ c => BuiltBy a c) R (shuffle k (l.map (fun p => (p.1, build lib m p.2)))) cs) (V : Schema → GoVal → Prop) :
    ∃ tab : List (GoStr × Labelled), tab.map (fun q => (q.1, q.2.1)) = cs.foldl (fun acc q => ainsert q.1 q.2 acc) [] ∧
      (tab.map (·.1)).Nodup ∧
      (∀ n d, (n, d) ∈ tab → ∃ x, (n, x) ∈ l ∧ BuiltFrom lib m x d.1 ∧ d.2 = V x) ∧
      (∀ n x, (n, x) ∈ l → ∃ c, (n, c, V x) ∈ tab) := by
  have hmem : ∀ q ∈ cs.foldl (fun acc q => ainsert q.1 q.2 acc) [], ∃ p : GoVal → Prop, ∃ x, (q.1, x) ∈ l ∧ BuiltFrom lib m x q.2 ∧ p = V x := by
    rintro ⟨n, c⟩ hq
    rcases mem_foldl_ainsert hq with hq | hq
    · obtain ⟨a, ha, h1, h2⟩ := forall2_right hN _ hq
      rw [mem_shuffle, List.mem_map] at ha
      obtain ⟨⟨n', x⟩, hx, rfl⟩ := ha
      simp only at h1 h2; subst h1
      exact ⟨V x, x, hx, h2, rfl⟩
    · simp at hq
  obtain ⟨l', e, hl⟩ := label_list _ hmem
  have htab : (l'.map (fun q => (q.1.1, (q.1.2, q.2)))).map (fun q : GoStr × Labelled => (q.1, q.2.1)) =
      cs.foldl (fun acc q => ainsert q.1 q.2 acc) [] := by
    rw [← e, List.map_map]; rfl
  have hkeys : (l'.map (fun q => (q.1.1, (q.1.2, q.2)))).map (fun q : GoStr × Labelled => q.1) =
      (cs.foldl (fun acc q => ainsert q.1 q.2 acc) []).map (·.1) := by
    rw [← e, List.map_map, List.map_map]; rfl
  refine ⟨l'.map (fun q => (q.1.1, (q.1.2, q.2))), htab, ?_, ?_, ?_⟩
  · rw [hkeys]; exact foldl_ainsert_nodup cs [] (by simp)
  · intro n d hd
    obtain ⟨q, hq, he⟩ := List.mem_map.1 hd
    cases he
    exact hl q hq
  · intro n x hx
    have h1 : (n, build lib m x) ∈ shuffle k (l.map (fun p => (p.1, build lib m p.2))) :=
      mem_shuffle.2 (List.mem_map.2 ⟨_, hx, rfl⟩)
    obtain ⟨c, hc, h2, -⟩ := forall2_left hN _ h1
    have h3 : n ∈ (cs.foldl (fun acc q => ainsert q.1 q.2 acc) []).map (·.1) :=
      keys_foldl_ainsert cs [] n (Or.inl (List.mem_map.2 ⟨c, hc, h2⟩))
    rw [← hkeys, List.map_map] at h3
    obtain ⟨q, hq, rfl⟩ := List.mem_map.1 h3
    obtain ⟨x', hx', -, hV⟩ := hl q hq
    have : x' = x := nodup_fst hn hx' hx
    subst this
    exact ⟨q.1.2, List.mem_map.2 ⟨q, hq, by rw [← hV]; rfl⟩⟩

theorem pats_label {l : List (Nat × GoStr × Schema)} (hn : (l.map (·.1)).Nodup) {R : List GoStr} {k : Nat}
    {cs : List (Nat × GoStr × Constraint)}
    (hN : Pats (fun a _ c => BuiltBy a c) R (shuffle k (l.map (fun p => (p.1, p.2.1, build lib m p.2.2)))) cs)
    (V : Schema → GoVal → Prop) :
    ∃ tab : List (Nat × GoStr × Labelled),
      tab.map (fun q => (q.1, q.2.1, q.2.2.1)) = cs.foldl (fun acc q => patInsert q.1 q.2.1 q.2.2 acc) [] ∧
      (tab.map (·.1)).Nodup ∧
      (∀ n src d, (n, src, d) ∈ tab → ∃ x, (n, src, x) ∈ l ∧ BuiltFrom lib m x d.1 ∧ d.2 = V x) ∧
      (∀ n src x, (n, src, x) ∈ l → ∃ c, (n, src, c, V x) ∈ tab) := by
  have hmem : ∀ q ∈ cs.foldl (fun acc q => patInsert q.1 q.2.1 q.2.2 acc) [], ∃ p : GoVal → Prop,
      ∃ x, (q.1, q.2.1, x) ∈ l ∧ BuiltFrom lib m x q.2.2 ∧ p = V x := by
    rintro ⟨n, src, c⟩ hq
    rcases mem_foldl_patInsert hq with hq | hq
    · obtain ⟨a, ha, h1, h2, h3⟩ := forall2_right hN _ hq
      rw [mem_shuffle, List.mem_map] at ha
      obtain ⟨⟨n', s', x⟩, hx, rfl⟩ := ha
      simp only at h1 h2 h3; subst h1; subst h2
      exact ⟨V x, x, hx, h3, rfl⟩
    · simp at hq
  obtain ⟨l', e, hl⟩ := label_list _ hmem
  have htab : (l'.map (fun q => (q.1.1, q.1.2.1, (q.1.2.2, q.2)))).map (fun q : Nat × GoStr × Labelled => (q.1, q.2.1, q.2.2.1)) =
      cs.foldl (fun acc q => patInsert q.1 q.2.1 q.2.2 acc) [] := by
    rw [← e, List.map_map]; rfl
  have hkeys : (l'.map (fun q => (q.1.1, q.1.2.1, (q.1.2.2, q.2)))).map (fun q : Nat × GoStr × Labelled => q.1) =
      (cs.foldl (fun acc q => patInsert q.1 q.2.1 q.2.2 acc) []).map (·.1) := by
    rw [← e, List.map_map, List.map_map]; rfl
  refine ⟨l'.map (fun q => (q.1.1, q.1.2.1, (q.1.2.2, q.2))), htab, ?_, ?_, ?_⟩
  · rw [hkeys]; exact nodup_foldl_patInsert cs [] (by simp)
  · intro n src d hd
    obtain ⟨q, hq, he⟩ := List.mem_map.1 hd
    cases he
    exact hl q hq
  · intro n src x hx
    have h1 : (n, src, build lib m x) ∈ shuffle k (l.map (fun p => (p.1, p.2.1, build lib m p.2.2))) :=
      mem_shuffle.2 (List.mem_map.2 ⟨_, hx, rfl⟩)
    obtain ⟨c, hc, h2, -⟩ := forall2_left hN _ h1
    have h3 : n ∈ (cs.foldl (fun acc q => patInsert q.1 q.2.1 q.2.2 acc) []).map (·.1) :=
      keys_foldl_patInsert cs [] n (Or.inl (List.mem_map.2 ⟨c, hc, h2⟩))
    rw [← hkeys, List.map_map] at h3
    obtain ⟨q, hq, rfl⟩ := List.mem_map.1 h3
    obtain ⟨x', hx', -, hV⟩ := hl q hq
    obtain ⟨rfl, rfl⟩ := Prod.mk.inj (nodup_fst hn hx' hx)
    exact ⟨q.1.2.2, List.mem_map.2 ⟨q, hq, by rw [← hV]; rfl⟩⟩

theorem mem_propDep_fold {k d : GoStr} : ∀ (l : List (GoStr × List GoStr)) (o : ObjC Constraint),
    d ∈ (l.foldl (fun o d => o.PropDependency d.1 d.2) o).GetPropDependencies k ↔
      d ∈ o.GetPropDependencies k ∨ ∃ t, (k, t) ∈ l ∧ d ∈ t
  | [], o => by simp
  | (k', t') :: l, o => by
    rw [List.foldl_cons, mem_propDep_fold l]
    have : (o.PropDependency k' t').GetPropDependencies k =
        if k = k' then o.GetPropDependencies k ++ t' else o.GetPropDependencies k := by
      unfold ObjC.PropDependency
      simp only [ObjC.GetPropDependencies, alookup_ainsert]
      split
      · rename_i h; subst h; rfl
      · rfl
    simp only
    rw [this]
    constructor
    · rintro (h | ⟨t, h1, h2⟩)
      · split at h
        · rename_i hk; subst hk
          rcases List.mem_append.1 h with h | h
          · exact Or.inl h
          · exact Or.inr ⟨t', by simp, h⟩
        · exact Or.inl h
      · exact Or.inr ⟨t, by simp [h1], h2⟩
    · rintro (h | ⟨t, h1, h2⟩)
      · left; split
        · exact List.mem_append_left _ h
        · exact h
      · rcases List.mem_cons.1 h1 with h1 | h1
        · cases h1
          left; rw [if_pos rfl]; exact List.mem_append_right _ h2
        · exact Or.inr ⟨t, h1, h2⟩

theorem objectStart_more {S : Type} (s : SchemaF S) : (∀ k, k ∈ (objectStart s).required ↔ k ∈ s.required) ∧
    (objectStart s).minProps = s.minProps.getD (-1) ∧ (objectStart s).maxProps = s.maxProps.getD (-1) := by
  have h0 : (if 0 < s.required.length then Object'.Required s.required else Object') = Object'.Required s.required := by
    split
    · rfl
    · rename_i h
      have : s.required = [] := List.length_eq_zero_iff.1 (by omega)
      rw [this]; rfl
  unfold objectStart applyIf
  simp only [h0]
  refine ⟨fun k => ?_, ?_, ?_⟩
  · have : k ∈ (Object'.Required s.required).required ↔ k ∈ s.required := by
      unfold ObjC.Required
      simp only [foldl_addName_mem]
      simp [Object']
    cases s.minProps <;> cases s.maxProps <;> exact this
  · cases s.minProps <;> cases s.maxProps <;> rfl
  · cases s.minProps <;> cases s.maxProps <;> rfl

/-! ## The object keywords -/

theorem objectType_tracks {s : SchemaF Schema} (h : s.Conforming ext formats cls) (ht : .object ∈ s.type)
    {V : Schema → GoVal → Prop} {R : List GoStr} {o : ObjC Constraint}
    (hb : ObjectBuilt (fun a _ c => BuiltBy a c) R (s.map (build lib m)) o)
    (ih : ∀ x, s.Child x → ∀ c, (Constraint.object o).Child c → BuiltFrom lib m x c →
      Tracks ext (Doc cls) (denote ext ρ c) (V x)) :
    Tracks ext (Doc cls) (denote ext ρ (.object o)) (fun v => HasType .object v ∧ (s.map V).ValueRules ext v) := by
  have hen : s.enum = [] := by
    by_contra he
    have := h.enumTyped he _ ht
    simp at this
  obtain ⟨k1, cs1, n1, e1⟩ := hb.props
  obtain ⟨k2, cs2, n2, e2⟩ := hb.patterns
  obtain ⟨k3, cs3, n3, e3⟩ := hb.schemadeps
  obtain ⟨k4, e4⟩ := hb.propdeps
  obtain ⟨props, p1, p2, p3, p4⟩ := named_label h.propNames n1 V
  obtain ⟨pats, q1, q2, q3, q4⟩ := pats_label h.patternIds n2 V
  obtain ⟨deps, d1, d2, d3, d4⟩ := named_label h.depSchemaKeys n3 V
  obtain ⟨r1, r2, r3⟩ := objectStart_more (s.map (build lib m))
  have hx : ∃ x : Option Labelled, x.map (·.1) = o.additional ∧
      ((s.additionalProps = .nil ∧ x = none) ∨ (s.additionalProps = .allow ∧ x = some (.empty, fun _ => True)) ∨
        ∃ y c, s.additionalProps = .schema y ∧ BuiltFrom lib m y c ∧ x = some (c, V y)) := by
    have hE := hb.additional
    cases ha : s.additionalProps with
    | nil =>
      simp only [SchemaF.map, ha, Extra.map] at hE
      generalize o.additional = oa at hE
      cases hE
      exact ⟨none, rfl, by simp⟩
    | allow =>
      simp only [SchemaF.map, ha, Extra.map] at hE
      generalize o.additional = oa at hE
      cases hE
      exact ⟨some (.empty, fun _ => True), rfl, by simp⟩
    | schema y =>
      simp only [SchemaF.map, ha, Extra.map] at hE
      generalize o.additional = oa at hE
      cases hE with
      | schema hc => exact ⟨some (_, V y), rfl, Or.inr (Or.inr ⟨y, _, rfl, hc, rfl⟩)⟩
  obtain ⟨x, x1, x2⟩ := hx
  have hpd : ∀ k d, d ∈ o.GetPropDependencies k ↔ ∃ t, (k, t) ∈ s.depNames ∧ d ∈ t := by
    intro k d
    unfold ObjC.GetPropDependencies
    rw [e4]
    have := mem_propDep_fold (k := k) (d := d) (shuffle k4 (s.map (build lib m)).depNames) Object'
    unfold ObjC.GetPropDependencies at this
    rw [this]
    simp only [mem_shuffle]
    constructor
    · rintro (h | h)
      · simp [Object', alookup] at h
      · exact h
    · exact Or.inr
  set L : ObjC Labelled := { props := props, patterns := pats, additional := x, required := o.required, propdeps := o.propdeps, schemadeps := deps, minProps := o.minProps, maxProps := o.maxProps } with hL
  have hLo : L.map (·.1) = o := by
    unfold ObjC.map
    simp only [hL]
    rw [p1, q1, d1, x1, ← e1, ← e2, ← e3]
  have hdep : ∀ k d, L.GetSchemaDependency k = some d ↔ (k, d) ∈ deps := by
    intro k d
    exact alookup_iff_mem d2
  have hchild : ∀ d, L.Child d → Tracks ext (Doc cls) (denote ext ρ d.1) d.2 := by
    intro d hd
    have hoc : (Constraint.object o).Child d.1 := .object (by rw [← hLo]; exact (ObjC.map_child _ L).2 ⟨d, hd, rfl⟩)
    cases hd with
    | prop hd =>
      obtain ⟨y, hy, hc, he⟩ := p3 _ d hd
      rw [he]; exact ih y (.property hy) _ hoc hc
    | pattern hd =>
      obtain ⟨y, hy, hc, he⟩ := q3 _ _ d hd
      rw [he]; exact ih y (.patternProp hy) _ hoc hc
    | dependency hd =>
      obtain ⟨y, hy, hc, he⟩ := d3 _ d ((hdep _ d).1 hd)
      rw [he]; exact ih y (.dependency hy) _ hoc hc
    | additional hd =>
      simp only [hL] at hd
      rcases x2 with ⟨-, hx⟩ | ⟨-, hx⟩ | ⟨y, c, hy, hc, hx⟩
      · rw [hx] at hd; cases hd
      · rw [hx] at hd; cases hd; exact empty_tracks _
      · rw [hx] at hd; cases hd; exact ih y (.additionalProps hy) _ hoc hc
  have hov : ∀ k, ∀ p ∈ L.patterns, ∀ q ∈ L.patterns, ext.reMatch p.2.1 k = true → ext.reMatch q.2.1 k = true → p = q := by
    rintro k ⟨i, src, d⟩ hp ⟨i', src', d'⟩ hq hp' hq'
    obtain ⟨y, hy, -⟩ := q3 _ _ _ hp
    obtain ⟨y', hy', -⟩ := q3 _ _ _ hq
    have : i = i' := h.patternsApart k _ hy _ hy' hp' hq'
    subst this
    have := nodup_fst q2 hp hq
    rw [this]
  have hT := object_tracks (o := L) ⟨p2⟩ hchild hov
  rw [hLo] at hT
  have hdecl : ∀ k, L.Declares k ↔ ∃ y, (k, y) ∈ s.properties := by
    intro k
    constructor
    · rintro ⟨d, hd⟩
      obtain ⟨y, hy, -⟩ := p3 _ d hd
      exact ⟨y, hy⟩
    · rintro ⟨y, hy⟩
      obtain ⟨c, hc⟩ := p4 _ _ hy
      exact ⟨_, hc⟩
  have hpat : ∀ k, L.PatternFor ext k ↔ ∃ id src y, (id, src, y) ∈ s.patternProps ∧ ext.reMatch src k = true := by
    intro k
    constructor
    · rintro ⟨id, src, d, hd, hm⟩
      obtain ⟨y, hy, -⟩ := q3 _ _ d hd
      exact ⟨id, src, y, hy, hm⟩
    · rintro ⟨id, src, y, hy, hm⟩
      obtain ⟨c, hc⟩ := q4 _ _ _ hy
      exact ⟨id, src, _, hc, hm⟩
  have hcov : ∀ k, L.Covers ext k ↔ s.Knows ext k := fun k => or_congr (hdecl k) (hpat k)
  have hundecl : ∀ k, L.PatternFor ext k → ¬ L.Declares k := by
    intro k hk hd
    obtain ⟨id, src, y, hy, hm⟩ := (hpat k).1 hk
    obtain ⟨z, hz⟩ := (hdecl k).1 hd
    rw [h.patternsUndeclared k z hz _ hy] at hm
    cases hm
  have mp : ∀ k (p : GoVal → Prop), (k, p) ∈ (s.map V).properties ↔ ∃ y, (k, y) ∈ s.properties ∧ V y = p := by
    intro k p
    simp only [SchemaF.map, List.mem_map, Prod.exists, Prod.mk.injEq]
    constructor
    · rintro ⟨a, y, h1, rfl, rfl⟩; exact ⟨y, h1, rfl⟩
    · rintro ⟨y, h1, rfl⟩; exact ⟨k, y, h1, rfl, rfl⟩
  have mq : ∀ id src (p : GoVal → Prop), (id, src, p) ∈ (s.map V).patternProps ↔
      ∃ y, (id, src, y) ∈ s.patternProps ∧ V y = p := by
    intro id src p
    simp only [SchemaF.map, List.mem_map, Prod.exists, Prod.mk.injEq]
    constructor
    · rintro ⟨a, b, y, h1, rfl, rfl, rfl⟩; exact ⟨y, h1, rfl⟩
    · rintro ⟨y, h1, rfl⟩; exact ⟨id, src, y, h1, rfl, rfl, rfl⟩
  have md : ∀ k (p : GoVal → Prop), (k, p) ∈ (s.map V).depSchemas ↔ ∃ y, (k, y) ∈ s.depSchemas ∧ V y = p := by
    intro k p
    simp only [SchemaF.map, List.mem_map, Prod.exists, Prod.mk.injEq]
    constructor
    · rintro ⟨a, y, h1, rfl, rfl⟩; exact ⟨y, h1, rfl⟩
    · rintro ⟨y, h1, rfl⟩; exact ⟨k, y, h1, rfl, rfl⟩
  have hcount : ∀ n : Nat, CountOk L n ↔ (∀ b, s.minProps = some b → b ≤ (n : Int)) ∧ (∀ b, s.maxProps = some b → (n : Int) ≤ b) := by
    intro n
    unfold CountOk
    simp only [hL, hb.minProps, hb.maxProps, r2, r3]
    exact and_congr (bound_iff h.minProps (fun b => b ≤ (n : Int))) (bound_iff h.maxProps (fun b => (n : Int) ≤ b))
  have hreq : ∀ k, k ∈ L.required ↔ k ∈ s.required := by
    intro k; simp only [hL, hb.required, r1]; rfl
  refine hT.congr (fun v hv => ?_)
  constructor
  · rintro ⟨kvs, rfl, hr⟩
    refine ⟨.object kvs, valueRules_obj.2 ⟨fun hh => absurd hen hh, ?_⟩⟩
    exact
      { required := fun k hk => hr.required k ((hreq k).2 hk) ((hdecl k).2 (h.required k hk))
        minProps := ((hcount _).1 hr.count).1
        maxProps := ((hcount _).1 hr.count).2
        properties := by
          intro k p x hp hx
          obtain ⟨y, hy, rfl⟩ := (mp k p).1 hp
          obtain ⟨c, hc⟩ := p4 k y hy
          exact hr.declared k _ x hc hx
        patterns := by
          intro id src p k x hp hx hm
          obtain ⟨y, hy, rfl⟩ := (mq id src p).1 hp
          obtain ⟨c, hc⟩ := q4 id src y hy
          exact hr.pattern k x hx (hundecl k ⟨id, src, _, hc, hm⟩) id src _ hc hm
        additionalNone := by
          rintro ha k ⟨x, hx⟩
          by_contra hno
          have hd : ¬ L.Declares k := fun hd => by
            obtain ⟨y, hy⟩ := (hdecl k).1 hd
            exact hno (Or.inl ⟨_, (mp k _).2 ⟨y, hy, rfl⟩⟩)
          have hp : ¬ L.PatternFor ext k := fun hd => by
            obtain ⟨id, src, y, hy, hm⟩ := (hpat k).1 hd
            exact hno (Or.inr ⟨id, src, _, (mq id src _).2 ⟨y, hy, rfl⟩, hm⟩)
          obtain ⟨c, hc, -⟩ := hr.additional k x hx hd hp
          simp only [hL] at hc
          rcases x2 with ⟨-, hx⟩ | ⟨h', -⟩ | ⟨y, c', h', -⟩
          · rw [hx] at hc; cases hc
          · simp [SchemaF.map, h', Extra.map] at ha
          · simp [SchemaF.map, h', Extra.map] at ha
        additional := by
          intro p ha k x hx hno1 hno2
          have hd : ¬ L.Declares k := fun hd => by
            obtain ⟨y, hy⟩ := (hdecl k).1 hd
            exact hno1 ⟨_, (mp k _).2 ⟨y, hy, rfl⟩⟩
          have hp : ¬ L.PatternFor ext k := fun hd => by
            obtain ⟨id, src, y, hy, hm⟩ := (hpat k).1 hd
            exact hno2 ⟨id, src, _, (mq id src _).2 ⟨y, hy, rfl⟩, hm⟩
          obtain ⟨c, hc, hcx⟩ := hr.additional k x hx hd hp
          simp only [hL] at hc
          rcases x2 with ⟨h', -⟩ | ⟨h', -⟩ | ⟨y, c', h', -, hx⟩
          · simp [SchemaF.map, h', Extra.map] at ha
          · simp [SchemaF.map, h', Extra.map] at ha
          · simp only [SchemaF.map, h', Extra.map, Extra.schema.injEq] at ha
            rw [hx] at hc; cases hc
            rw [← ha]; exact hcx
        depNames := by
          intro k l hl hk d hd
          have hkn := (h.depNamesKnown k l hl).1
          exact (hr.propDeps k hk ((hcov k).2 hkn) d ((hpd k d).2 ⟨l, hl, hd⟩)).1
        depSchemas := by
          intro k p hp hk
          obtain ⟨y, hy, rfl⟩ := (md k p).1 hp
          obtain ⟨c, hc⟩ := d4 k y hy
          obtain ⟨hkn, hno⟩ := h.depSchemasKnown k y hy
          refine hr.schemaDeps k hk ((hcov k).2 hkn) ?_ _ ((hdep k _).2 hc)
          rw [List.eq_nil_iff_forall_not_mem]
          intro d hd
          obtain ⟨t, ht, -⟩ := (hpd k d).1 hd
          exact hno t ht }
  · rintro ⟨ht, hr⟩
    cases ht with
    | object kvs =>
      obtain ⟨-, hr⟩ := valueRules_obj.1 hr
      refine ⟨kvs, rfl, ?_⟩
      exact
        { count := (hcount _).2 ⟨hr.minProps, hr.maxProps⟩
          declared := by
            intro k d x hd hx
            obtain ⟨y, hy, -, he⟩ := p3 k d hd
            show d.2 x
            rw [he]
            exact hr.properties k _ x ((mp k _).2 ⟨y, hy, rfl⟩) hx
          required := fun k hk _ => hr.required k ((hreq k).1 hk)
          pattern := by
            intro k x hx _ id src d hd hm
            obtain ⟨y, hy, -, he⟩ := q3 id src d hd
            show d.2 x
            rw [he]
            exact hr.patterns id src _ k x ((mq id src _).2 ⟨y, hy, rfl⟩) hx hm
          additional := by
            intro k x hx hd hp
            have hno1 : ¬ ∃ p, (k, p) ∈ (s.map V).properties := by
              rintro ⟨p, hp⟩
              obtain ⟨y, hy, -⟩ := (mp k p).1 hp
              exact hd ((hdecl k).2 ⟨y, hy⟩)
            have hno2 : ¬ ∃ id src p, (id, src, p) ∈ (s.map V).patternProps ∧ ext.reMatch src k = true := by
              rintro ⟨id, src, p, hp', hm⟩
              obtain ⟨y, hy, -⟩ := (mq id src p).1 hp'
              exact hp ((hpat k).2 ⟨id, src, y, hy, hm⟩)
            rcases x2 with ⟨h', hx'⟩ | ⟨h', hx'⟩ | ⟨y, c', h', -, hx'⟩
            · rcases hr.additionalNone (by simp [SchemaF.map, h', Extra.map]) k ⟨x, hx⟩ with h1 | h1
              · exact absurd h1 hno1
              · exact absurd h1 hno2
            · exact ⟨_, hx', trivial⟩
            · exact ⟨_, hx', hr.additional (V y) (by simp [SchemaF.map, h', Extra.map]) k x hx hno1 hno2⟩
          propDeps := by
            intro k hk _ d hd
            obtain ⟨t, ht, hdt⟩ := (hpd k d).1 hd
            exact ⟨hr.depNames k t ht hk d hdt, (hcov d).2 ((h.depNamesKnown k t ht).2 d hdt)⟩
          schemaDeps := by
            intro k hk _ _ d hd
            obtain ⟨y, hy, -, he⟩ := d3 k d ((hdep k d).1 hd)
            show d.2 _
            rw [he]
            exact hr.depSchemas k _ ((md k _).2 ⟨y, hy, rfl⟩) hk }

end Jsval
