import Verif.Lemmas.Embed
import Verif.Lemmas.StructEnd
import Verif.Spec.Merges
/-!
# Storing in structs with embedded structs
-/
namespace Jsval
variable {fn : GoStr} {x : GoVal}

theorem mem_allFields_top {fs : List (Field × GoVal)} {p : Field × GoVal} (h : p ∈ fs) : p ∈ allFields fs := by
  induction fs with
  | nil => cases h
  | cons q fs ih =>
    simp only [allFields, List.mem_append, List.mem_cons]
    rcases List.mem_cons.1 h with rfl | h
    · exact Or.inl (Or.inl rfl)
    · exact Or.inr (ih h)

theorem mem_allFields_emb {fs gs : List (Field × GoVal)} {f : Field} (ha : f.anonymous = true) (h : (f, .struct gs) ∈ fs) {q : Field × GoVal}
    (hq : q ∈ allFields gs) : q ∈ allFields fs := by
  induction fs with
  | nil => cases h
  | cons p fs ih =>
    simp only [allFields, List.mem_append, List.mem_cons]
    rcases List.mem_cons.1 h with rfl | h
    · refine Or.inl (Or.inr ?_)
      simpa only [allFieldsF, ha, if_true, allFieldsV] using hq
    · exact Or.inr (ih h)

/-- One field with the fields named `fn` at depth `d` overwritten. -/
def fieldSet (fn : GoStr) (x : GoVal) : Nat → Field × GoVal → Field × GoVal
  | 0, p => if p.1.name = fn then (p.1, x) else p
  | d + 1, p =>
      if p.1.anonymous then
        match p.2 with
        | .struct fs' => (p.1, .struct (fieldsSet fn x d fs'))
        | _ => p
      else p

theorem fieldsSet_eq (d : Nat) (fs : List (Field × GoVal)) : fieldsSet fn x d fs = fs.map (fieldSet fn x d) := by
  cases d <;> rfl

theorem fieldSet_still : ∀ (d : Nat) (p : Field × GoVal), (∀ q ∈ p :: allFieldsF p, q.1.name = fn → q.2 = x) → fieldSet fn x d p = p := by
  intro d
  induction d with
  | zero =>
    intro p h
    simp only [fieldSet]
    split
    · rename_i hp
      rw [← h p (by simp) hp]
    · rfl
  | succ d ih =>
    rintro ⟨f, v⟩ h
    simp only [fieldSet]
    split
    · rename_i ha
      cases v with
      | struct gs =>
        simp only [fieldsSet_eq]
        have : gs.map (fieldSet fn x d) = gs := by
          conv_rhs => rw [← List.map_id gs]
          refine List.map_congr_left fun q hq => ih q fun r hr => h r ?_
          refine List.mem_cons_of_mem _ ?_
          simp only [allFieldsF, ha, if_true, allFieldsV]
          rcases List.mem_cons.1 hr with rfl | hr
          · exact mem_allFields_top hq
          · obtain ⟨g, w⟩ := q
            cases hg : g.anonymous with
            | false => simp [allFieldsF, hg] at hr
            | true =>
              simp only [allFieldsF, hg, if_true] at hr
              cases w with
              | struct ks => exact mem_allFields_emb hg hq (by simpa [allFieldsV] using hr)
              | _ => simp [allFieldsV] at hr
        rw [this]
      | _ => rfl
    · rfl

theorem fieldSet_absent (d : Nat) (p : Field × GoVal) (h : ∀ q ∈ p :: allFieldsF p, q.1.name ≠ fn) : fieldSet fn x d p = p :=
  fieldSet_still d p fun q hq e => absurd e (h q hq)

theorem fieldsSet_still (d : Nat) {fs : List (Field × GoVal)} (h : ∀ q ∈ allFields fs, q.1.name = fn → q.2 = x) : fieldsSet fn x d fs = fs := by
  rw [fieldsSet_eq]
  induction fs with
  | nil => rfl
  | cons p fs ih =>
    simp only [allFields, List.mem_append] at h
    rw [List.map_cons, fieldSet_still d p fun q hq => h q (Or.inl hq), ih fun q hq => h q (Or.inr hq)]

theorem fieldsSet_absent (d : Nat) {fs : List (Field × GoVal)} (h : ∀ q ∈ allFields fs, q.1.name ≠ fn) : fieldsSet fn x d fs = fs :=
  fieldsSet_still d fun q hq e => absurd e (h q hq)

theorem setF_others {l : List (Field × GoVal)} (h : ∀ q ∈ l, q.1.name ≠ fn) : setF fn x l = l := by
  unfold setF
  conv_rhs => rw [← List.map_id l]
  exact List.map_congr_left fun q hq => by rw [if_neg (h q hq)]; rfl

theorem setF_append (l r : List (Field × GoVal)) : setF fn x (l ++ r) = setF fn x l ++ setF fn x r := List.map_append

/-- The fields named `fn` at depth `d` of one field. -/
def fieldAt (fn : GoStr) : Nat → Field × GoVal → List GoVal
  | 0, p => if p.1.name = fn then [p.2] else []
  | d + 1, p =>
      if p.1.anonymous then
        match p.2 with
        | .struct fs' => fieldsAt fn d fs'
        | _ => []
      else []

theorem fieldsAt_cons (d : Nat) (p : Field × GoVal) (fs : List (Field × GoVal)) : fieldsAt fn d (p :: fs) = fieldAt fn d p ++ fieldsAt fn d fs := by
  cases d with
  | zero =>
    simp only [fieldsAt, fieldAt, List.filter_cons]
    by_cases h : p.1.name = fn <;> simp [h]
  | succ d => rfl

theorem fieldsAt_named {d : Nat} {fs : List (Field × GoVal)} (h : fieldsAt fn d fs ≠ []) : ∃ q ∈ allFields fs, q.1.name = fn := by
  have := fieldsAt_sub fn d fs
  by_contra hc
  have e : (allFields fs).filter (fun p => decide (p.1.name = fn)) = [] := by
    rw [List.filter_eq_nil_iff]
    intro a ha
    simpa using fun e => hc ⟨a, ha, e⟩
  rw [e] at this
  exact h (by simpa using this)

theorem noShadowing_cons {p : Field × GoVal} {fs : List (Field × GoVal)} (h : NoShadowing (p :: fs)) :
    ((p :: allFieldsF p).map (·.1.name)).Nodup ∧ NoShadowing fs ∧ ∀ q ∈ p :: allFieldsF p, ∀ r ∈ allFields fs, q.1.name ≠ r.1.name := by
  unfold NoShadowing at h
  rw [allFields, List.map_append, List.nodup_append] at h
  exact ⟨h.1, h.2.1, fun q hq r hr => h.2.2 _ (List.mem_map_of_mem hq) _ (List.mem_map_of_mem hr)⟩

/-- A field that is not embedded, overwritten at its depth, is overwritten where its struct is replaced by its fields. -/
theorem unembed_fieldsSet : ∀ (d : Nat) (fs : List (Field × GoVal)), NoShadowing fs → (∀ q ∈ allFields fs, q.1.name = fn → q.1.anonymous = false) →
    fieldsAt fn d fs ≠ [] → unembed (fieldsSet fn x d fs) = setF fn x (unembed fs) := by
  intro d
  induction d with
  | zero =>
    intro fs
    induction fs with
    | nil => intro _ _ h; exact absurd rfl h
    | cons p fs ih =>
      intro hs hn hf
      obtain ⟨h1, h2, h3⟩ := noShadowing_cons hs
      simp only [allFields, List.mem_append] at hn
      rw [fieldsSet_eq, List.map_cons, ← fieldsSet_eq, unembed, unembed, setF_append]
      by_cases hp : p.1.name = fn
      · have hrest : ∀ q ∈ allFields fs, q.1.name ≠ fn := fun q hq e => h3 p (by simp) q hq (hp.trans e.symm)
        rw [fieldsSet_absent 0 hrest, setF_others (l := unembed fs) fun q hq => hrest q ((unembed_sub fs).subset hq)]
        obtain ⟨f, v⟩ := p
        have ha : f.anonymous = false := hn (f, v) (Or.inl (by simp)) hp
        simp only at hp
        simp only [fieldSet, if_pos hp, unembedF, ha, setF, Bool.false_eq_true, if_false, List.map_cons, List.map_nil]
      · rw [fieldsAt_cons, fieldAt, if_neg hp, List.nil_append] at hf
        obtain ⟨r, hr, hre⟩ := fieldsAt_named hf
        rw [ih h2 (fun q hq => hn q (Or.inr hq)) hf, fieldSet, if_neg hp]
        rw [setF_others (l := unembedF p) fun q hq e => h3 q ((unembedF_sub p).subset hq) r hr (e.trans hre.symm)]
  | succ d ihd =>
    intro fs
    induction fs with
    | nil => intro _ _ h; exact absurd rfl h
    | cons p fs ih =>
      intro hs hn hf
      obtain ⟨h1, h2, h3⟩ := noShadowing_cons hs
      simp only [allFields, List.mem_append] at hn
      rw [fieldsSet_eq, List.map_cons, ← fieldsSet_eq, unembed, unembed, setF_append]
      rw [fieldsAt_cons] at hf
      by_cases hp : fieldAt fn (d + 1) p = []
      · rw [hp, List.nil_append] at hf
        obtain ⟨r, hr, hre⟩ := fieldsAt_named hf
        have hp' : ∀ q ∈ p :: allFieldsF p, q.1.name ≠ fn := fun q hq e => h3 q hq r hr (e.trans hre.symm)
        rw [ih h2 (fun q hq => hn q (Or.inr hq)) hf, fieldSet_absent _ _ hp',
          setF_others (l := unembedF p) fun q hq => hp' q ((unembedF_sub p).subset hq)]
      · obtain ⟨f, v⟩ := p
        simp only [fieldAt] at hp
        split at hp
        · rename_i ha
          cases v with
          | struct gs =>
            simp only at hp
            have hsub : ∀ q ∈ allFields gs, q ∈ (f, .struct gs) :: allFieldsF (f, .struct gs) := fun q hq =>
              List.mem_cons_of_mem _ (by simpa only [allFieldsF, ha, if_true, allFieldsV] using hq)
            obtain ⟨r, hr, hre⟩ := fieldsAt_named hp
            have hrest : ∀ q ∈ allFields fs, q.1.name ≠ fn := fun q hq e => h3 r (hsub r hr) q hq (hre.trans e.symm)
            rw [fieldsSet_absent _ hrest, setF_others (l := unembed fs) fun q hq => hrest q ((unembed_sub fs).subset hq)]
            have hgs : NoShadowing gs := by
              simp only [allFieldsF, ha, if_true, allFieldsV, List.map_cons, List.nodup_cons] at h1
              exact h1.2
            have := ihd gs hgs (fun q hq => hn q (Or.inl (hsub q hq))) hp
            simp only [fieldSet, ha, if_true, unembedF, unembedV, this]
          | _ => exact absurd rfl hp
        · exact absurd rfl hp

/-- The fields themselves stay. -/
theorem allFields_fieldsSet : ∀ (d : Nat) (fs : List (Field × GoVal)), (∀ q ∈ allFields fs, q.1.name = fn → q.1.anonymous = false) →
    (∀ q ∈ allFields fs, OkField q) →
    (allFields (fieldsSet fn x d fs)).map (·.1) = (allFields fs).map (·.1) ∧ ∀ q ∈ allFields (fieldsSet fn x d fs), OkField q := by
  intro d
  induction d with
  | zero =>
    intro fs
    induction fs with
    | nil => intro _ _; exact ⟨rfl, fun q h => by cases h⟩
    | cons p fs ih =>
      intro hn ho
      simp only [allFields, List.mem_append] at hn ho
      obtain ⟨i1, i2⟩ := ih (fun q hq => hn q (Or.inr hq)) fun q hq => ho q (Or.inr hq)
      rw [fieldsSet_eq, List.map_cons, ← fieldsSet_eq, allFields, allFields, List.map_append, List.map_append, i1]
      obtain ⟨f, v⟩ := p
      by_cases hp : f.name = fn
      · have ha := hn (f, v) (Or.inl (by simp)) hp
        simp only at ha
        have e : fieldSet fn x 0 (f, v) = (f, x) := by simp [fieldSet, hp]
        rw [e]
        refine ⟨by simp [allFieldsF, ha], fun q hq => ?_⟩
        simp only [allFieldsF, ha, Bool.false_eq_true, if_false, List.mem_append, List.mem_cons, List.not_mem_nil, or_false] at hq
        rcases hq with rfl | hq
        · intro h; simp only [ha] at h; cases h
        · exact i2 q hq
      · have e : fieldSet fn x 0 (f, v) = (f, v) := by simp [fieldSet, hp]
        rw [e]
        refine ⟨rfl, fun q hq => ?_⟩
        rcases List.mem_append.1 hq with hq | hq
        · exact ho q (Or.inl hq)
        · exact i2 q hq
  | succ d ihd =>
    intro fs
    induction fs with
    | nil => intro _ _; exact ⟨rfl, fun q h => by cases h⟩
    | cons p fs ih =>
      intro hn ho
      simp only [allFields, List.mem_append] at hn ho
      obtain ⟨i1, i2⟩ := ih (fun q hq => hn q (Or.inr hq)) fun q hq => ho q (Or.inr hq)
      rw [fieldsSet_eq, List.map_cons, ← fieldsSet_eq, allFields, allFields, List.map_append, List.map_append, i1]
      have key : ∀ p', p' = p → ((p' :: allFieldsF p').map (·.1) = (p :: allFieldsF p).map (·.1) ∧ ∀ q ∈ p' :: allFieldsF p', OkField q) := by
        rintro p' rfl
        exact ⟨rfl, fun q hq => ho q (Or.inl hq)⟩
      have goal : (((fieldSet fn x (d + 1) p) :: allFieldsF (fieldSet fn x (d + 1) p)).map (·.1) = (p :: allFieldsF p).map (·.1) ∧
          ∀ q ∈ fieldSet fn x (d + 1) p :: allFieldsF (fieldSet fn x (d + 1) p), OkField q) := by
        obtain ⟨f, v⟩ := p
        cases ha : f.anonymous with
        | false => exact key _ (by simp [fieldSet, ha])
        | true =>
          cases v with
          | struct gs =>
            have hsub : ∀ q ∈ allFields gs, q ∈ (f, .struct gs) :: allFieldsF (f, .struct gs) := fun q hq =>
              List.mem_cons_of_mem _ (by simpa only [allFieldsF, ha, if_true, allFieldsV] using hq)
            obtain ⟨j1, j2⟩ := ihd gs (fun q hq => hn q (Or.inl (hsub q hq))) fun q hq => ho q (Or.inl (hsub q hq))
            have e : fieldSet fn x (d + 1) (f, .struct gs) = (f, .struct (fieldsSet fn x d gs)) := by simp [fieldSet, ha]
            rw [e]
            simp only [allFieldsF, ha, if_true, allFieldsV, List.map_cons, j1, true_and, List.mem_cons]
            rintro q (rfl | hq)
            · exact fun _ => Or.inl ⟨_, rfl⟩
            · exact j2 q hq
          | _ => exact key _ (by simp [fieldSet, ha])
      refine ⟨by rw [goal.1], fun q hq => ?_⟩
      rcases List.mem_append.1 hq with hq | hq
      · exact goal.2 q hq
      · exact i2 q hq

/-- `FieldByName` finds a field that is not shadowed at the only depth with a field of that name. -/
theorem fieldDepth_emb {fs : List (Field × GoVal)} (h : NoShadowing fs) {f : Field} {v : GoVal}
    (hm : (f, v) ∈ allFields fs) : ∃ d, fieldDepth f.name fs = some d ∧ fieldsAt f.name d fs ≠ [] := by
  have := fieldByName_emb h hm
  unfold fieldByName at this
  obtain ⟨d, h1, h2⟩ := Option.bind_eq_some_iff.1 this
  exact ⟨d, h1, fun e => by rw [e] at h2; cases h2⟩

mutual
theorem unembed_plain : ∀ (fs : List (Field × GoVal)), ∀ q ∈ unembed fs, q.1.anonymous = false
  | [] => by simp [unembed]
  | p :: rest => by
    intro q hq
    rw [unembed, List.mem_append] at hq
    rcases hq with hq | hq
    · exact unembedF_plain p q hq
    · exact unembed_plain rest q hq
theorem unembedF_plain : ∀ (p : Field × GoVal), ∀ q ∈ unembedF p, q.1.anonymous = false
  | (f, v) => by
    intro q hq
    cases ha : f.anonymous with
    | true => simp only [unembedF, ha, if_true] at hq; exact unembedV_plain v q hq
    | false =>
      simp only [unembedF, ha, Bool.false_eq_true, if_false, List.mem_singleton] at hq
      rw [hq]; exact ha
theorem unembedV_plain : ∀ (v : GoVal), ∀ q ∈ unembedV v, q.1.anonymous = false
  | .struct fs => by simp only [unembedV]; exact unembed_plain fs
  | .nil => by simp [unembedV]
  | .bool _ => by simp [unembedV]
  | .int _ _ => by simp [unembedV]
  | .uint _ _ => by simp [unembedV]
  | .float _ _ => by simp [unembedV]
  | .str _ => by simp [unembedV]
  | .slice _ _ => by simp [unembedV]
  | .map _ _ => by simp [unembedV]
  | .mapOther _ _ => by simp [unembedV]
  | .ptr _ => by simp [unembedV]
  | .iface _ => by simp [unembedV]
  | .maybe _ _ => by simp [unembedV]
  | .time _ => by simp [unembedV]
  | .other _ _ => by simp [unembedV]
end

/-! ## The accessors -/

section
variable {fs : List (Field × GoVal)}

theorem Merges.flat (h : Merges fs) : FlatStruct (unembed fs) :=
  ⟨unembed_plain fs, h.goNames.sublist ((unembed_sub fs).map _), h.jsonNames⟩

theorem extract_lookup (h : Merges fs) (k : GoStr) :
    ∃ props, extract fs = some props ∧ alookup k props = (fieldVal k (unembed fs)).map (fun nv => ⟨nv.1, isMaybeVal nv.2⟩) := by
  obtain ⟨props, h1, -, h3⟩ := extract_emb h.embeds
  exact ⟨props, h1, h3 k⟩

theorem fieldVal_named (h : Merges fs) {k n : GoStr} {v : GoVal} (hv : fieldVal k (unembed fs) = some (n, v)) : fieldByName n fs = some v := by
  obtain ⟨f, h1, rfl, -⟩ := (fieldVal_spec h.flat).1 hv
  exact fieldByName_emb h.goNames ((unembed_sub fs).subset h1)

theorem getProp_merged (h : Merges fs) (k : GoStr) : getProp (some (.struct fs)) k = .ok ((fieldVal k (unembed fs)).map (·.2)) := by
  obtain ⟨props, h1, h2⟩ := extract_lookup h k
  simp only [getProp, h1, h2]
  cases hv : fieldVal k (unembed fs) with
  | none => rfl
  | some nv =>
    obtain ⟨n, v⟩ := nv
    simp only [Option.map_some, fieldVal_named h hv]

theorem viewProp_merged (h : Merges fs) (k : GoStr) :
    viewProp (some (.struct fs)) k = .ok (match fieldVal k (unembed fs) with | none => .absent | some nv => fieldView nv.2) := by
  refine Eq.trans ?_ (viewProp_struct h.flat.flat k)
  unfold viewProp
  rw [getProp_merged h, getProp_fieldVal h.flat.flat]

theorem names_merged (h : Merges fs) : ∃ names, structPropNames fs = .ok names ∧ names.Nodup ∧
    ∀ k, k ∈ names ↔ ∃ f v x, (f, v) ∈ unembed fs ∧ jsonNameSpec f = some k ∧ fieldContent v = some x := by
  obtain ⟨names, h1, h2, h3⟩ := structPropNames_emb h.embeds h.goNames
  refine ⟨names, h1, h2, fun k => ?_⟩
  rw [h3]
  constructor
  · rintro ⟨f, v, hd, hc⟩
    obtain ⟨g, g1, g2, g3⟩ := (fieldVal_spec h.flat).1 (designates_iff.2 ⟨f, hd, rfl⟩)
    obtain ⟨x, hx⟩ := Option.ne_none_iff_exists'.1 hc
    exact ⟨g, v, x, g1, g3, hx⟩
  · rintro ⟨f, v, x, g1, g2, g3⟩
    obtain ⟨g, hd, -⟩ := designates_iff.1 ((fieldVal_spec h.flat).2 ⟨f, g1, rfl, g2⟩)
    exact ⟨g, v, hd, by rw [g3]; simp⟩

theorem field_merged (h : Merges fs) {f : Field} {v : GoVal} {p : GoStr} (hf : (f, v) ∈ unembed fs) (hp : jsonNameSpec f = some p) :
    fieldVal p (unembed fs) = some (f.name, v) := (fieldVal_spec h.flat).2 ⟨f, hf, rfl, hp⟩

theorem setField_merged (h : Merges fs) {f : Field} {v : GoVal} (hf : (f, v) ∈ unembed fs) (x : GoVal) :
    unembed (setField f.name x fs) = setF f.name x (unembed fs) ∧ Merges (setField f.name x fs) := by
  have hin := (unembed_sub fs).subset hf
  obtain ⟨d, h1, h2⟩ := fieldDepth_emb h.goNames hin
  have hn : ∀ q ∈ allFields fs, q.1.name = f.name → q.1.anonymous = false := fun q hq e => by
    have := nodup_field_eq h.goNames hq hin e
    rw [this]
    exact unembed_plain fs _ hf
  have e : setField f.name x fs = fieldsSet f.name x d fs := by simp only [setField, h1]
  have hu := unembed_fieldsSet (x := x) d fs h.goNames hn h2
  obtain ⟨h3, h4⟩ := allFields_fieldsSet (x := x) d fs hn h.embeds
  rw [e]
  refine ⟨hu, h4, ?_, ?_⟩
  · have := congrArg (List.map Field.name) h3
    rw [List.map_map, List.map_map] at this
    unfold NoShadowing
    rw [show (fun p : Field × GoVal => p.1.name) = Field.name ∘ (·.1) from rfl, this]
    exact h.goNames
  · rw [hu]
    have e : ∀ l : List (Field × GoVal), l.filterMap (fun p => jsonNameSpec p.1) = (l.map (·.1)).filterMap jsonNameSpec := fun l => by
      rw [List.filterMap_map]; rfl
    rw [e, setF_fields, ← e]
    exact h.jsonNames

theorem setField_still (h : Merges fs) {f : Field} {v : GoVal} (hf : (f, v) ∈ unembed fs) : setField f.name v fs = fs := by
  have hin := (unembed_sub fs).subset hf
  obtain ⟨d, h1, h2⟩ := fieldDepth_emb h.goNames hin
  simp only [setField, h1]
  refine fieldsSet_still d fun q hq e => ?_
  rw [nodup_field_eq h.goNames hq hin e]

theorem putAt_merged (h : Merges fs) {f : Field} {v : GoVal} {p : GoStr} (hf : (f, v) ∈ unembed fs) (hp : jsonNameSpec f = some p) (x : GoVal) :
    putAt (.struct fs) p x = .struct (setField f.name x fs) := by
  obtain ⟨props, h1, h2⟩ := extract_lookup h p
  simp only [putAt, h1, Option.bind_some, h2, field_merged h hf hp, Option.map_some]

theorem setPropAt_merged (ext : Ext) (b : Bool) (h : Merges fs) {f : Field} {v : GoVal} {p : GoStr} (hf : (f, v) ∈ unembed fs)
    (hp : jsonNameSpec f = some p) (dv : GoVal) :
    setPropAt ext b (.struct fs) p dv = (stored ext b v dv).map (fun x => .struct (setField f.name x fs)) := by
  obtain ⟨props, h1, h2⟩ := extract_lookup h p
  have hv := field_merged h hf hp
  simp only [setPropAt, setPropStruct, h1, h2, hv, Option.map_some, Option.bind_some, fieldVal_named h hv]
  unfold stored
  split
  · simp_all
  · rename_i w m heq
    cases heq
    simp only
    cases hc : coerce m.kind dv with
    | none => rfl
    | some dv' =>
      rcases hs : (MaybeSt.mk w m).Set ext dv' with ⟨e, m'⟩
      cases b <;> cases e <;> simp [hs, Except.map]
  · rename_i w m heq
    cases heq
    simp only
    cases dv with
    | nil => rfl
    | _ =>
      simp only
      generalize MaybeSt.Set ext _ _ = q
      obtain ⟨e, m'⟩ := q
      cases e <;> rfl
  · rename_i hm hp heq
    cases heq
    split
    · exact absurd rfl (hm _ _ _)
    · exact absurd rfl (hp _ _ _)
    · rfl

/-- Nothing is merged in a struct without embedded fields. -/
theorem unembed_flat (h : ∀ p ∈ fs, p.1.anonymous = false) : unembed fs = fs ∧ allFields fs = fs := by
  induction fs with
  | nil => exact ⟨rfl, rfl⟩
  | cons p fs ih =>
    obtain ⟨h1, h2⟩ := ih fun q hq => h q (by simp [hq])
    obtain ⟨f, v⟩ := p
    have ha : f.anonymous = false := h (f, v) (by simp)
    simp [unembed, allFields, unembedF, allFieldsF, ha, h1, h2]

theorem FlatStruct.merges (h : FlatStruct fs) : Merges fs := by
  obtain ⟨h1, h2⟩ := unembed_flat h.noEmb
  refine ⟨fun p hp ha => ?_, ?_, by rw [h1]; exact h.jsonNames⟩
  · rw [h2] at hp
    rw [h.noEmb p hp] at ha
    cases ha
  · unfold NoShadowing
    rw [h2]
    exact h.goNames

end
end Jsval
