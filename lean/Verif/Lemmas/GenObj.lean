import Verif.Lemmas.GenTree
/-!
# Generated text read back: objects, references and the whole tree
-/
namespace Jsval
open Go

variable {ρ : GoStr → Option Val}

theorem obj_method (c : ObjC Constraint) (n : GoStr) (args : List Val) :
    method (.con (.object c)) n args = (objMethod c n args).map (fun c => .con (.object c)) := by
  simp [Go.method, conMethod, Option.map_map, Function.comp_def]

/-- The arguments of `Required`. -/
theorem commaSep_args {isPrint} : ∀ (l : List GoStr) (pre : GoStr) (xs : List Val), l ≠ [] → (∀ s ∈ l, Plain s) →
    ArgsText ρ pre xs →
    ∃ x0 ys w y, pre ++ commaSep (l.map (goQuote isPrint)) = x0 ++ w ∧ ArgsText ρ x0 (xs ++ ys) ∧ ArgText ρ w y ∧
      ys ++ [y] = l.map .str
  | [], _, _, h, _, _ => absurd rfl h
  | [v], pre, xs, _, hl, hp =>
    ⟨pre, [], goQuote isPrint v, .str v, rfl, by simpa using hp, ArgText.quote (hl v (List.mem_cons_self ..)), rfl⟩
  | v :: w :: l, pre, xs, _, hl, hp => by
    obtain ⟨x0, ys, z, y, g2, g3, g4, g5⟩ := commaSep_args (isPrint := isPrint) (w :: l)
      (pre ++ (goQuote isPrint v ++ b! ", ")) (xs ++ [.str v]) (by simp)
      (fun a ha => hl a (List.mem_cons_of_mem _ ha)) (hp.snoc (ArgText.quote (hl v (List.mem_cons_self ..))) (.inl rfl))
    refine ⟨x0, .str v :: ys, z, y, ?_, by simpa using g3, g4, ?_⟩
    · rw [← g2]
      simp [commaSep]
    · rw [List.cons_append, g5]
      rfl

theorem required_chain {isPrint} (o : ObjC Constraint) {l : List GoStr} (hl : ∀ s ∈ l, Plain s) :
    Chain ρ (if l.length > 0 then b! ".\nRequired(" ++ commaSep (l.map (goQuote isPrint)) ++ b! ")" else [])
      (.con (.object o)) (.con (.object (o.Required l))) := by
  refine Chain.ofIf (fun hn => ?_) (fun hp => ?_)
  · have : l = [] := by simpa using hn
    subst this
    rfl
  · have hne : l ≠ [] := by rintro rfl; simp at hp
    obtain ⟨x0, ys, w, y, g2, g3, g4, g5⟩ := commaSep_args (ρ := ρ) (isPrint := isPrint) l [] [] hne hl ArgsText.nil
    simp only [List.nil_append] at g2 g3
    have hs : Step ρ (b! ".\nRequired(" ++ (x0 ++ (w ++ [0x29]))) (.con (.object o)) (.con (.object (o.Required l))) := by
      refine Step.ofArgs (n := b! "Required") ⟨by decide, ⟨_, rfl⟩, fun _ _ => rfl⟩ g3 g4 ?_
      rw [obj_method, g5]
      show Option.map _ ((allSome ((l.map Val.str).map Val.toStr)).map o.Required) = _
      rw [allSome_map Val.toStr Val.str (fun _ => rfl)]
      rfl
    rw [g2]
    simpa using hs

theorem rowsOf_cons_some {C : Type} {tbl : List (GoStr × C)} {n : GoStr} {c : C} (l : List GoStr) (h : alookup n tbl = some c) :
    rowsOf tbl (n :: l) = (n, c) :: rowsOf tbl l := by
  simp [rowsOf, h]

/-- Named children. -/
theorem genNamed_chain {isPrint cm M} {f : Constraint → Constraint} {k : ObjC Constraint → GoStr → Constraint → ObjC Constraint}
    {tbl : List (GoStr × Constraint)} {gtbl : List (GoStr × (Sched → G))}
    (ho : OpenText (b! ".\n" ++ M ++ b! "(\n") M)
    (hk : ∀ x s c, objMethod x M [.str s, .con c] = some (k x s c))
    (hg : ∀ n, alookup n gtbl = (alookup n tbl).map (gen isPrint cm))
    (h : ∀ n c, alookup n tbl = some c → ∀ σ, ∃ t, gen isPrint cm c σ = .ok t ∧ Builds ρ t (.con (f c))) :
    ∀ (names : List GoStr) (i : Nat) (σ : Sched) (x : ObjC Constraint),
    (∀ n ∈ names, Plain n) → (∀ n ∈ names, ∃ c, alookup n tbl = some c) →
    ∃ t, catG (genNamed isPrint M gtbl i names σ) = .ok t ∧
      Chain ρ t (.con (.object x))
        (.con (.object ((rowsOf (tbl.map (fun p => (p.1, f p.2))) names).foldl (fun x p => k x p.1 p.2) x)))
  | [], i, σ, x, _, _ => ⟨[], rfl, Chain.nil _⟩
  | n :: names, i, σ, x, hp, hn => by
    obtain ⟨c, hc⟩ := hn n (List.mem_cons_self ..)
    obtain ⟨t, ht, hb⟩ := h n c hc (σ.sub i)
    obtain ⟨u, hu, hch⟩ := genNamed_chain ho hk hg h names (i + 1) σ (k x n (f c))
      (fun a ha => hp a (List.mem_cons_of_mem _ ha)) (fun a ha => hn a (List.mem_cons_of_mem _ ha))
    refine ⟨(b! ".\n" ++ M ++ b! "(\n") ++ (([] ++ (goQuote isPrint n ++ b! ",\n")) ++ (t ++ b! ",\n") ++ [0x29]) ++ u, ?_, ?_⟩
    rotate_left
    · have hs : Step ρ ((b! ".\n" ++ M ++ b! "(\n") ++ (([] ++ (goQuote isPrint n ++ b! ",\n")) ++ (t ++ b! ",\n") ++ [0x29]))
          (.con (.object x)) (.con (.object (k x n (f c)))) := by
        refine Step.ofComma ho ((ArgsText.nil.snoc (ArgText.quote (hp n (List.mem_cons_self ..))) (.inr rfl)).snoc hb.toArg (.inr rfl)) ?_
        rw [obj_method]
        show Option.map _ (objMethod x M [.str n, .con (f c)]) = _
        rw [hk]; rfl
      rw [rowsOf_cons_some (c := f c), List.foldl_cons]
      · exact hs.chain.append hch
      · rw [alookup_map, hc]; rfl
    · rw [genNamed, hg, hc, Option.map_some]
      refine (catG_append (catG_cons _ (l := [gen isPrint cm c (σ.sub i), .ok (b! ",\n)")]) (s := t ++ b! ",\n)") ?_) hu).trans ?_
      · rw [ht]; exact catG_cons _ (catG_one _)
      · simp

/-- The dependencies of one property. -/
theorem depRow_chain {isPrint} {k : GoStr} (hk : Plain k) : ∀ (ds : List GoStr) (x : ObjC Constraint), (∀ d ∈ ds, Plain d) →
    Chain ρ (ds.flatMap (fun d => b! ".\nPropDependency(" ++ goQuote isPrint k ++ b! ", " ++ goQuote isPrint d ++ b! ")"))
      (.con (.object x)) (.con (.object ((ds.map (fun d => (k, d))).foldl (fun x p => x.PropDependency p.1 [p.2]) x)))
  | [], x, _ => Chain.nil _
  | d :: ds, x, h => by
    have ih := depRow_chain (isPrint := isPrint) hk ds (x.PropDependency k [d]) (fun a ha => h a (List.mem_cons_of_mem _ ha))
    have hs : Step ρ (b! ".\nPropDependency(" ++ (([] ++ (goQuote isPrint k ++ b! ", ")) ++ (goQuote isPrint d ++ [0x29])))
        (.con (.object x)) (.con (.object (x.PropDependency k [d]))) := by
      refine Step.ofArgs (n := b! "PropDependency") ⟨by decide, ⟨_, rfl⟩, fun _ _ => rfl⟩
        (ArgsText.nil.snoc (ArgText.quote hk) (.inl rfl)) (ArgText.quote (h d (List.mem_cons_self ..))) ?_
      rw [obj_method]; rfl
    have := hs.chain.append ih
    simpa using this

theorem genDeps_chain {isPrint} {deps : List (GoStr × List GoStr)} (hd : ∀ p ∈ deps, Plain p.1 ∧ ∀ d ∈ p.2, Plain d) :
    ∀ (keys : List GoStr) (x : ObjC Constraint), (∀ k ∈ keys, k ∈ deps.map (·.1)) →
    Chain ρ (genDeps isPrint deps keys) (.con (.object x))
      (.con (.object ((keys.flatMap (fun k => ((alookup k deps).getD []).map (fun d => (k, d)))).foldl
        (fun x p => x.PropDependency p.1 [p.2]) x)))
  | [], x, _ => Chain.nil _
  | k :: keys, x, h => by
    obtain ⟨ds, hds⟩ := alookup_isSome.2 (h k (List.mem_cons_self ..))
    have hm := hd _ (alookup_mem hds)
    have h1 := depRow_chain (ρ := ρ) (isPrint := isPrint) hm.1 ds x hm.2
    have ih := genDeps_chain (isPrint := isPrint) hd keys
      ((ds.map (fun d => (k, d))).foldl (fun x p => x.PropDependency p.1 [p.2]) x) (fun a ha => h a (List.mem_cons_of_mem _ ha))
    have := h1.append ih
    simpa [genDeps, hds, List.flatMap_cons, List.foldl_append] using this

theorem alookup_perm {β : Type} {l l' : List (GoStr × β)} (h : l.Perm l') (hn : (l.map (·.1)).Nodup) (k : GoStr) :
    alookup k l = alookup k l' := by
  have hn' : (l'.map (·.1)).Nodup := (h.map _).nodup_iff.1 hn
  cases h1 : alookup k l with
  | some v => exact ((alookup_iff_mem hn').2 (h.mem_iff.1 (alookup_mem h1))).symm
  | none =>
    rw [alookup_eq_none] at h1
    symm
    rw [alookup_eq_none]
    intro hc
    exact h1 ((h.map _).mem_iff.2 hc)

theorem ppmap_fold {α : Type} : ∀ (l : List (Nat × GoStr × α)) (acc : List (GoStr × α)) (k : GoStr), (l.map (·.2.1)).Nodup →
    alookup k (l.foldl (fun m p => ainsert p.2.1 p.2.2 m) acc) = (alookup k (l.map (·.2))).or (alookup k acc)
  | [], acc, k, _ => by simp [alookup]
  | (i, s, a) :: l, acc, k, hn => by
    rw [List.map_cons, List.nodup_cons] at hn
    rw [List.foldl_cons, ppmap_fold l _ k hn.2, List.map_cons]
    by_cases hk : k = s
    · subst hk
      have : alookup k (l.map (·.2)) = none := by
        rw [alookup_eq_none, List.map_map]
        exact hn.1
      rw [this, alookup_ainsert_self]
      simp [alookup]
    · rw [alookup_ainsert_ne hk]
      simp [alookup, Ne.symm hk]

theorem ppmap_shuffle {α : Type} {l : List (Nat × GoStr × α)} (hn : (l.map (·.2.1)).Nodup) (j : Nat) (k : GoStr) :
    alookup k (ppmap (shuffle j l)) = alookup k (l.map (·.2)) := by
  have hp : (shuffle j l).Perm l := shuffle_perm l j
  have hn' : ((shuffle j l).map (·.2.1)).Nodup := (hp.map _).nodup_iff.2 hn
  unfold ppmap
  rw [ppmap_fold _ _ _ hn']
  rw [alookup_perm (hp.map (·.2)) (by rw [List.map_map]; exact hn')]
  simp [alookup]

theorem genObject_builds {isPrint cm} {f : Constraint → Constraint} {o : ObjC Constraint} (hg : o.Written) (σ : Sched)
    (h : ∀ c, ObjC.Child o c → ∀ σ, ∃ t, gen isPrint cm c σ = .ok t ∧ Builds ρ t (.con (f c))) :
    ∃ t, genObject isPrint (genObj isPrint cm o) σ = .ok t ∧ Builds ρ t (.con (.object (rebuildObj (o.map f)))) := by
  obtain ⟨ps, pats, ad, req, pd, sd, mn, mx⟩ := o
  have hc1 := required_chain (ρ := ρ) (isPrint := isPrint) Object' (l := sortStrings req) (fun s hs => hg.plainReq s (mem_sortStrings.1 hs))
  have hc2 : ∀ x : ObjC Constraint, ∃ t, catG (genSub (b! "AdditionalProperties") (ad.map (gen isPrint cm)) (σ.sub 1)) = .ok t ∧ Chain ρ t
      (.con (.object x)) (.con (.object (match ad.map f with | none => x | some c => x.AdditionalProperties (some c)))) := by
    intro x
    cases ad with
    | none => exact ⟨[], rfl, Chain.nil _⟩
    | some c =>
      obtain ⟨t, ht, hb⟩ := h c (.additional rfl) (σ.sub 1)
      refine ⟨b! ".\nAdditionalProperties(\n" ++ (t ++ b! ",\n)"), ?_, ?_⟩
      · simp only [Option.map_some, genSub, ht]
        exact catG_cons _ (catG_cons _ (catG_one _))
      · exact Step.chain (Step.sub (n := b! "AdditionalProperties") ⟨by decide, ⟨_, rfl⟩, fun _ _ => rfl⟩ hb (by rw [obj_method]; rfl))
  have hc3 := genNamed_chain (ρ := ρ) (isPrint := isPrint) (cm := cm) (f := f) (M := b! "AddProp") (k := fun x s c => x.AddProp s c)
    (tbl := ps) (gtbl := ps.map (fun p => (p.1, gen isPrint cm p.2))) ⟨by decide, ⟨_, rfl⟩, fun _ _ => rfl⟩ (fun _ _ _ => rfl)
    (fun n => alookup_map _ n ps) (fun n c hc => h c (.prop (alookup_mem hc))) (sortStrings (ps.map (·.1))) 0 (σ.sub 3)
  have hc4 := genNamed_chain (ρ := ρ) (isPrint := isPrint) (cm := cm) (f := f) (M := b! "PatternPropertiesString")
    (k := fun x s c => x.PatternProperties x.patterns.length s c)
    (tbl := pats.map (·.2)) (gtbl := ppmap (shuffle (σ.sub 4).key (pats.map (fun p => (p.1, p.2.1, gen isPrint cm p.2.2)))))
    ⟨by decide, ⟨_, rfl⟩, fun _ _ => rfl⟩ (fun _ _ _ => rfl)
    (fun n => by
      rw [ppmap_shuffle (by rw [List.map_map]; exact hg.patSources), List.map_map, ← alookup_map, List.map_map]
      rfl)
    (fun n c hc => by
      have := alookup_mem hc
      rw [List.mem_map] at this
      obtain ⟨⟨i, p⟩, hp, rfl⟩ := this
      exact h c (.pattern hp)) (sortStrings ((pats.map (·.2)).map (·.1))) 0 (σ.sub 5)
  obtain ⟨t2, e2, c2⟩ := hc2 (Object'.Required (sortStrings req))
  let o2 : ObjC Constraint := (match ad.map f with
    | none => (Object'.Required (sortStrings req)) | some c => (Object'.Required (sortStrings req)).AdditionalProperties (some c))
  let o3 : ObjC Constraint := (rowsOf (ps.map (fun p => (p.1, f p.2))) (sortStrings (ps.map (·.1)))).foldl (fun x p => x.AddProp p.1 p.2) o2
  let o4 : ObjC Constraint := (rowsOf ((pats.map (·.2)).map (fun p => (p.1, f p.2))) (sortStrings ((pats.map (·.2)).map (·.1)))).foldl
    (fun x p => x.PatternProperties x.patterns.length p.1 p.2) o3
  obtain ⟨t3, e3, c3⟩ := hc3 o2
    (fun n hn => by
      rw [mem_sortStrings, List.mem_map] at hn
      obtain ⟨p, hp, rfl⟩ := hn
      exact hg.plainProps p hp)
    (fun n hn => alookup_isSome.2 (mem_sortStrings.1 hn))
  obtain ⟨t4, e4, c4⟩ := hc4 o3
    (fun n hn => by
      rw [mem_sortStrings, List.mem_map] at hn
      obtain ⟨p, hp, rfl⟩ := hn
      rw [List.mem_map] at hp
      obtain ⟨p, hp, rfl⟩ := hp
      exact hg.plainPats p hp)
    (fun n hn => alookup_isSome.2 (mem_sortStrings.1 hn))
  have c5 := genDeps_chain (ρ := ρ) (isPrint := isPrint) hg.plainDeps (sortStrings (pd.map (·.1))) o4 (fun k hk => mem_sortStrings.1 hk)
  have key := builds_object.chain (hc1.append (c2.append (c3.append (c4.append c5))))
  have eObj : rebuildObj ⟨ps.map (fun p => (p.1, f p.2)),
      pats.map (fun p => (p.1, p.2.1, f p.2.2)), ad.map f, req, pd, sd.map (fun p => (p.1, f p.2)), mn, mx⟩ =
      (depPairs pd).foldl (fun x p => x.PropDependency p.1 [p.2]) o4 := by
    have e1 : sortedRows (ps.map (fun p => (p.1, f p.2))) = rowsOf (ps.map (fun p => (p.1, f p.2))) (sortStrings (ps.map (·.1))) := by
      unfold sortedRows
      rw [List.map_map]; rfl
    have e2 : sortedRows ((pats.map (fun p => (p.1, p.2.1, f p.2.2))).map (·.2)) =
        rowsOf ((pats.map (·.2)).map (fun p => (p.1, f p.2))) (sortStrings ((pats.map (·.2)).map (·.1))) := by
      unfold sortedRows
      simp only [List.map_map]
      rfl
    unfold rebuildObj
    rw [e1, e2]
    cases ad <;> rfl
  show ∃ t, _ ∧ Builds ρ t (.con (.object (rebuildObj ⟨ps.map (fun p => (p.1, f p.2)),
      pats.map (fun p => (p.1, p.2.1, f p.2.2)), ad.map f, req, pd, sd.map (fun p => (p.1, f p.2)), mn, mx⟩)))
  rw [eObj]
  refine ⟨_, ?_, key⟩
  · rw [genObj, genObject, genOpt_eq, genProps_eq, genPats_eq]
    simp only
    have s1 : sortStrings (shuffle (σ.sub 0).key req) = sortStrings req := sortStrings_shuffle _ _
    have s2 : sortStrings (shuffle (σ.sub 2).key ((ps.map (fun p => (p.1, gen isPrint cm p.2))).map (·.1))) = sortStrings (ps.map (·.1)) := by
      rw [sortStrings_shuffle, List.map_map]; rfl
    have s3 : sortStrings ((shuffle (σ.sub 4).key (pats.map (fun p => (p.1, p.2.1, gen isPrint cm p.2.2)))).map (·.2.1)) =
        sortStrings ((pats.map (·.2)).map (·.1)) := by
      rw [← shuffle_map, sortStrings_shuffle, List.map_map, List.map_map]; rfl
    have s4 : sortStrings (shuffle (σ.sub 6).key (pd.map (·.1))) = sortStrings (pd.map (·.1)) := sortStrings_shuffle _ _
    rw [s1, s2, s3, s4]
    have s5 : req.length = (sortStrings req).length := (sortStrings_perm req).length_eq.symm
    rw [s5]
    refine (catG_append (catG_append (catG_append (catG_append (catG_cons _ (catG_one _)) e2) e3) e4) (catG_one _)).trans ?_
    simp only [List.append_assoc]

/-! ## References -/

theorem genReference_builds {isPrint} {m : Nat} {n : GoStr} (hρ : ρ (b! "M") = some (.cmap m)) (hn : Plain n) :
    ∃ t, genReference isPrint (b! "M") n = .ok t ∧ Builds ρ t (.con (.ref m n)) := by
  refine ⟨_, rfl, ?_⟩
  have hb : Builds ρ (b! "jsval.Reference(M)") (.con (.ref m [])) := by
    refine ⟨by decide, ⟨_, rfl⟩, ⟨b! "jsval.Reference(M", 0x29, rfl, by decide⟩,
      [.ident (b! "jsval"), .op 0x2E, .ident (b! "Reference"), .op 0x28, .ident (b! "M"), .op 0x29],
      .call (.sel (.ident (b! "jsval")) (b! "Reference")) [.ident (b! "M")], fun _ _ => ⟨rfl, rfl⟩, fun _ _ _ _ => rfl, rfl, ?_⟩
    have e : eval ρ (.ident (b! "M")) = some (.cmap m) := by
      rw [eval, if_neg (by decide), if_neg (by decide), hρ]
    rw [eval, evalArgs, e, evalArgs]
    rfl
  have hs : Step ρ (b! ".RefersTo(" ++ goQuote isPrint n ++ [0x29]) (.con (.ref m [])) (.con (.ref m n)) :=
    Step.one (n := b! "RefersTo") ⟨by decide, ⟨_, rfl⟩, fun _ _ => rfl⟩ (ArgText.quote hn) rfl
  have := hb.step hs
  simpa [List.append_assoc] using this

/-! ## The whole tree -/

theorem emit_builds {x : G} {v : Val} (h : ∃ t, x = .ok t ∧ Builds ρ t v) : ∃ t, emitCode x = .ok t ∧ Builds ρ t v := by
  obtain ⟨t, rfl, hb⟩ := h
  exact ⟨t, hb.emit, hb⟩

/-- Code generated for a supported constraint is an expression for the rebuilt constraint. -/
theorem gen_builds {ints : Prop} {isPrint : Nat → Bool} {cm : GoStr} {refs : Bool} {m : Nat}
    (hrefs : refs = true → cm = b! "M" ∧ ρ (b! "M") = some (.cmap m)) (c : Constraint) (hc : c.Every (Constraint.GenD ints refs)) :
    ∀ σ, ∃ t, gen isPrint cm c σ = .ok t ∧ Builds ρ t (.con (rebuild m c)) := by
  induction c using Constraint.ind with
  | h c ih =>
    intro σ
    have ih' : ∀ d, c.Child d → ∀ σ, ∃ t, gen isPrint cm d σ = .ok t ∧ Builds ρ t (.con (rebuild m d)) :=
      fun d hd => ih d hd (hc.child hd)
    have hs := hc.self
    cases c with
    | empty => rw [gen, rebuild]; exact emit_builds ⟨_, rfl, builds_empty⟩
    | null => rw [gen, rebuild]; exact emit_builds ⟨_, rfl, builds_null⟩
    | boolean d => rw [gen, rebuild]; exact emit_builds (genBoolean_builds hs)
    | string c => rw [gen, rebuild]; exact emit_builds (genString_builds hs)
    | number c => rw [gen, rebuild]; exact emit_builds (genNumber_builds hs)
    | integer c => rw [gen, rebuild]; exact emit_builds (genInteger_builds hs)
    | enum l => exact absurd hs id
    | array a => rw [gen, rebuild_array]; exact emit_builds (genArray_builds σ (fun d hd => ih' d (.array hd)))
    | object o => rw [gen, rebuild_object]; exact emit_builds (genObject_builds hs.written σ (fun d hd => ih' d (.object hd)))
    | any l =>
      rw [gen, rebuild, genList_eq, rebuildList_eq]
      exact emit_builds (genCombo_builds .any l σ hs (fun d hd => ih' d (.any hd)))
    | all l =>
      cases l with
      | nil => rw [gen, rebuild]; exact emit_builds ⟨_, rfl, builds_empty⟩
      | cons d l =>
        rw [gen, rebuild, genList_eq, rebuildList_eq]
        exact emit_builds (genCombo_builds .all (d :: l) σ (by simp) (fun d hd => ih' d (.all hd)))
    | oneOf l =>
      rw [gen, rebuild, genList_eq, rebuildList_eq]
      exact emit_builds (genCombo_builds .oneOf l σ hs (fun d hd => ih' d (.oneOf hd)))
    | not d => exact absurd hs id
    | ref _ n =>
      obtain ⟨h1, h2⟩ := hrefs hs.1
      rw [gen, rebuild, h1]
      exact emit_builds (genReference_builds h2 hs.2)

/-- Code is generated for these constraints (with references through `M` if there are any), and builds what `f` makes of
them. -/
def GenCarries (isPrint : Nat → Bool) (refs : Bool) (P : Constraint → Prop) (f : Constraint → Constraint) : Prop :=
  ∀ (ρ : GoStr → Option Val) (cm : GoStr), (refs = true → cm = b! "M" ∧ ρ (b! "M") = some (.cmap 0)) → ∀ c, P c → ∀ σ,
    ∃ t, gen isPrint cm c σ = .ok t ∧ Builds ρ t (.con (f c))

theorem carries_rebuild {ints : Prop} {isPrint : Nat → Bool} {refs : Bool} :
    GenCarries isPrint refs (fun c => c.Every (Constraint.GenD ints refs)) (rebuild 0) :=
  fun _ _ h c hc => gen_builds h c hc

end Jsval
