import Verif.Lemmas.GenRun
import Verif.Lemmas.RebuildSem
/-!
# The generated program as a whole
-/
namespace Jsval
open Go

theorem nameVals_names : ∀ (vals : List GenVal) (i : Nat),
    (nameVals i vals).map (·.name) = vals.mapIdx (fun j v => if v.name = [] then b! "V" ++ natDec (i + j) else v.name)
  | [], _ => rfl
  | v :: vals, i => by
    rw [nameVals, List.map_cons, nameVals_names vals (i + 1), List.mapIdx_cons]
    congr 1
    · by_cases h : v.name = []
      · simp [h]
      · simp [h]
    · congr 1
      funext j w
      rw [show i + 1 + j = i + (j + 1) by omega]

theorem nameVals_valNames (vals : List GenVal) : (nameVals 0 vals).map (·.name) = valNames vals := by
  rw [nameVals_names]
  simp [valNames]

theorem nameVals_get : ∀ (vals : List GenVal) (i j : Nat) (v : GenVal), vals[j]? = some v →
    (nameVals i vals)[j]? = some { v with name := if v.name = [] then b! "V" ++ natDec (i + j) else v.name }
  | [], _, _, _, h => by simp at h
  | w :: vals, i, 0, v, h => by
    simp only [List.getElem?_cons_zero, Option.some.injEq] at h
    subst h
    rw [nameVals]
    by_cases hn : w.name = []
    · simp [hn]
    · simp [hn]
  | w :: vals, i, j + 1, v, h => by
    rw [nameVals, List.getElem?_cons_succ, nameVals_get vals (i + 1) j v (by simpa using h)]
    rw [show i + 1 + j = i + (j + 1) by omega]

/-- Declarations of validators. -/
theorem valDecls_reads : ∀ (names : List GoStr), (∀ x ∈ names, GoIdent x) → ∀ d s, ∃ t,
    catG (names.map (fun n => .ok (b! "\nvar " ++ n ++ b! " *jsval.JSVal"))) = .ok t ∧
    Reads t ⟨d, s, .top⟩ ⟨(names.map (fun n => (⟨n, true, b! "jsval", b! "JSVal"⟩ : VarDecl))).reverse ++ d, s, .top⟩
  | [], _, d, s => ⟨[], rfl, Reads.nil _⟩
  | x :: names, h, d, s => by
    have hx := h x (List.mem_cons_self ..)
    obtain ⟨t, ht, hr⟩ := valDecls_reads names (fun y hy => h y (List.mem_cons_of_mem _ hy)) (⟨x, true, b! "jsval", b! "JSVal"⟩ :: d) s
    refine ⟨_, catG_cons _ ht, ?_⟩
    have h1 := ptrDecl_reads (T := b! "JSVal") hx (fun _ _ => ⟨rfl, rfl⟩) d s
    have e : b! "\nvar " ++ x ++ b! " *jsval.JSVal" = b! "\nvar " ++ x ++ b! " *jsval." ++ b! "JSVal" := by simp
    rw [e]
    have := h1.append hr
    simpa using this

/-- Declarations of reference variables. -/
theorem refDecls_reads : ∀ (rv : List (GoStr × GoStr)), (∀ p ∈ rv, GoIdent p.2) → ∀ d s, ∃ t,
    catG (rv.map (fun p => .ok (b! "\nvar " ++ p.2 ++ b! " jsval.Constraint"))) = .ok t ∧
    Reads t ⟨d, s, .top⟩ ⟨(rv.map (fun p => (⟨p.2, false, b! "jsval", b! "Constraint"⟩ : VarDecl))).reverse ++ d, s, .top⟩
  | [], _, d, s => ⟨[], rfl, Reads.nil _⟩
  | x :: rv, h, d, s => by
    have hx := h x (List.mem_cons_self ..)
    obtain ⟨t, ht, hr⟩ := refDecls_reads rv (fun y hy => h y (List.mem_cons_of_mem _ hy)) (⟨x.2, false, b! "jsval", b! "Constraint"⟩ :: d) s
    refine ⟨_, catG_cons _ ht, ?_⟩
    have := (conDecl_reads hx d s).append hr
    simpa using this

theorem find_decl {l : List VarDecl} (hn : (l.map (·.name)).Nodup) {d : VarDecl} (hd : d ∈ l) {x : GoStr} (hx : d.name = x) :
    l.find? (fun d => decide (d.name = x)) = some d := by
  subst hx
  induction l with
  | nil => simp at hd
  | cons e l ih =>
    rw [List.map_cons, List.nodup_cons] at hn
    rcases List.mem_cons.1 hd with rfl | h
    · simp
    · have : e.name ≠ d.name := fun he => hn.1 (he ▸ List.mem_map_of_mem h)
      rw [List.find?_cons_of_neg (by simpa using this)]
      exact ih hn.2 h

theorem Seg.reads {decls t s s'} (h : Seg decls t s s') : ∃ stmts, (∀ d st, Reads t ⟨d, st, .body⟩ ⟨d, List.reverse stmts ++ st, .body⟩) ∧
    execAll decls stmts s = some s' := h

theorem hasRefs_iff {vals : List GenVal} {σ : Sched} (h : ∀ v ∈ vals, (v.refs.map (·.1)).Nodup) :
    (mergeAll σ 0 vals []).length > 0 ↔ hasRefs vals = true := by
  constructor
  · intro hl
    obtain ⟨⟨n, c⟩, hm⟩ := List.exists_mem_of_length_pos hl
    have hk := alookup_of_mem (mergeAll_nodup σ vals 0 [] (by simp)) hm
    rw [merged_lookup h] at hk
    unfold firstRef at hk
    obtain ⟨v, hv, hvn⟩ := List.exists_of_findSome?_eq_some hk
    unfold hasRefs
    rw [List.any_eq_true]
    refine ⟨v, hv, ?_⟩
    simp only [decide_eq_true_eq]
    intro he
    rw [he] at hvn
    simp [alookup] at hvn
  · intro hh
    unfold hasRefs at hh
    rw [List.any_eq_true] at hh
    obtain ⟨v, hv, hvn⟩ := hh
    simp only [decide_eq_true_eq] at hvn
    obtain ⟨⟨n, c⟩, hm⟩ := List.exists_mem_of_ne_nil _ hvn
    have hs : (firstRef n vals).isSome := by
      unfold firstRef
      rw [List.findSome?_isSome_iff]
      exact ⟨v, hv, by rw [alookup_of_mem (h v hv) hm]; rfl⟩
    rw [← merged_lookup h σ n] at hs
    cases hl : mergeAll σ 0 vals [] with
    | nil => rw [hl] at hs; simp [alookup] at hs
    | cons a l => simp

theorem mem_merged {vals : List GenVal} {σ : Sched} (h : ∀ v ∈ vals, (v.refs.map (·.1)).Nodup) (n : GoStr) :
    n ∈ (mergeAll σ 0 vals []).map (·.1) ↔ n ∈ refNames vals := by
  rw [← alookup_isSome, merged_lookup h, refNames, List.mem_dedup, List.mem_flatMap, firstRef]
  constructor
  · rintro ⟨c, hc⟩
    obtain ⟨v, hv, hvn⟩ := List.exists_of_findSome?_eq_some hc
    exact ⟨v, hv, alookup_isSome.1 ⟨c, hvn⟩⟩
  · rintro ⟨v, hv, hn⟩
    rw [← Option.isSome_iff_exists, List.findSome?_isSome_iff]
    obtain ⟨c, hc⟩ := alookup_isSome.2 hn
    exact ⟨v, hv, by rw [hc]; rfl⟩

theorem not_own {vals : List GenVal} {x : GoStr} (hM : x ≠ b! "M") (hR : ∀ k, x ≠ b! "R" ++ natDec k) : x ∉ ownNames vals := by
  unfold ownNames
  split_ifs
  · rw [List.mem_cons, List.mem_map]
    rintro (h | ⟨k, -, h⟩)
    · exact hM h
    · exact hR k h.symm
  · simp

/-- The variables of the generator. -/
theorem ownNames_eq {vals : List GenVal} {σ : Sched} (h : ∀ v ∈ vals, (v.refs.map (·.1)).Nodup) :
    ownNames vals = if hasRefs vals then b! "M" :: (refVars 0 (sortStrings ((mergeAll σ 0 vals []).map (·.1)))).map (·.2) else [] := by
  have hl : (sortStrings ((mergeAll σ 0 vals []).map (·.1))).length = (refNames vals).length := by
    rw [(sortStrings_perm _).length_eq]
    exact ((List.perm_ext_iff_of_nodup (mergeAll_nodup σ vals 0 [] (by simp)) (List.nodup_dedup _)).2 (mem_merged h)).length_eq
  rw [ownNames, refVars_all, hl]
  simp

/-- What the program has set up once it has run. -/
structure SetUpBy (f : Constraint → Constraint) (vals : List GenVal) (mem : Mem) : Prop where
  env : ∀ n, mem.env 0 n = (firstRef n vals).map (f)
  roots : ∀ (i : Nat) (v : GenVal) (c : Constraint), vals[i]? = some v → v.root = some c → ∀ x, (valNames vals)[i]? = some x →
    alookup x mem.vars = some (.jv ⟨x, if hasRefs vals then some 0 else none, some (f c)⟩)

theorem process_setUpBy {isPrint : Nat → Bool} {vals : List GenVal} {P : Constraint → Prop} {f : Constraint → Constraint}
    (hP : GenCarries isPrint (hasRefs vals) P f) (h : GenTogether P vals) (σ : Sched) :
    ∃ t p mem, process isPrint vals σ = .ok t ∧ parseProg t = some p ∧
      p.decls = (sortStrings (valNames vals)).map (fun n => ⟨n, true, b! "jsval", b! "JSVal"⟩) ++
        (if hasRefs vals then ⟨b! "M", true, b! "jsval", b! "ConstraintMap"⟩ ::
          (refVars 0 (sortStrings ((mergeAll (σ.sub 0) 0 vals []).map (·.1)))).map (fun p => ⟨p.2, false, b! "jsval", b! "Constraint"⟩) else []) ∧
      p.run = some mem ∧ SetUpBy f vals mem := by
  set tbl := mergeAll (σ.sub 0) 0 vals [] with htbl
  set rv := refVars 0 (sortStrings (tbl.map (·.1))) with hrv
  have htn : (tbl.map (·.1)).Nodup := mergeAll_nodup _ vals 0 [] (by simp)
  have hlk : ∀ n, alookup n tbl = firstRef n vals := fun n => merged_lookup h.tables _ n
  have hrv1 : rv.map (·.1) = sortStrings (tbl.map (·.1)) := refVars_fst _ _
  have hrv2 : (rv.map (·.2)).Nodup := refVars_nodup _ _
  have hrv3 : ∀ p ∈ rv, ∃ k, p.2 = b! "R" ++ natDec k := fun p hp => by
    obtain ⟨k, _, _, hk⟩ := refVars_snd _ _ p.2 (List.mem_map_of_mem hp)
    exact ⟨k, hk⟩
  have hown : ownNames vals = if hasRefs vals then b! "M" :: rv.map (·.2) else [] := ownNames_eq h.tables
  have hrvId : ∀ p ∈ rv, GoIdent p.2 := fun p hp => by
    obtain ⟨k, hk⟩ := hrv3 p hp
    rw [hk]; exact refVar_ident k
  have hrvNe : ∀ p ∈ rv, ∀ x : GoStr, x.head? ≠ some 0x52 → p.2 ≠ x := fun p hp x hx => by
    obtain ⟨k, hk⟩ := hrv3 p hp
    rw [hk]; exact refVar_ne hx
  have hGen : ∀ n c, firstRef n vals = some c → P c := by
    intro n c hc
    unfold firstRef at hc
    obtain ⟨v, hv, hvn⟩ := List.exists_of_findSome?_eq_some hc
    exact h.refs v hv n c hvn
  -- names
  have hnames := nameVals_valNames vals
  have hids : ∀ x ∈ sortStrings (valNames vals), GoIdent x := fun x hx => h.idents x (mem_sortStrings.1 hx)
  let valDs : List VarDecl := (sortStrings (valNames vals)).map (fun n => ⟨n, true, b! "jsval", b! "JSVal"⟩)
  let refDs : List VarDecl := if hasRefs vals then ⟨b! "M", true, b! "jsval", b! "ConstraintMap"⟩ ::
    rv.map (fun p => ⟨p.2, false, b! "jsval", b! "Constraint"⟩) else []
  let decls : List VarDecl := valDs ++ refDs
  have hvalDs : valDs.map (·.name) = sortStrings (valNames vals) := by simp [valDs, List.map_map, Function.comp_def]
  have hrefOwn : refDs.map (·.name) = ownNames vals := by
    rw [hown]
    simp only [refDs]
    split_ifs with hh
    · rw [List.map_cons, List.map_map]; rfl
    · rfl
  have hrefDs : ∀ x ∈ refDs.map (·.name), x = b! "M" ∨ ∃ p ∈ rv, x = p.2 := by
    intro x hx
    simp only [refDs] at hx
    split_ifs at hx with hh
    · rw [List.map_cons, List.mem_cons, List.map_map, List.mem_map] at hx
      rcases hx with rfl | ⟨p, hp, rfl⟩
      · exact .inl rfl
      · exact .inr ⟨p, hp, rfl⟩
    · simp at hx
  have hnd : (decls.map (·.name)).Nodup := by
    rw [List.map_append, List.nodup_append]
    refine ⟨?_, ?_, ?_⟩
    · rw [hvalDs]; exact (sortStrings_perm _).nodup_iff.2 h.distinct
    · simp only [refDs]
      split_ifs with hh
      · rw [List.map_cons, List.nodup_cons, List.map_map]
        refine ⟨?_, hrv2⟩
        rw [List.mem_map]
        rintro ⟨p, hp, he⟩
        exact hrvNe p hp (b! "M") (by decide) he
      · simp
    · rintro a ha b hb rfl
      rw [hvalDs, mem_sortStrings] at ha
      rw [hrefOwn] at hb
      exact (h.fresh a ha).2 hb
  have hok : declsOk decls = true := by
    unfold declsOk
    rw [Bool.and_eq_true, decide_eq_true_eq, List.all_eq_true]
    refine ⟨hnd, fun d hd => ?_⟩
    rw [decide_eq_true_eq]
    rcases List.mem_append.1 hd with hd | hd
    · have : d.name ∈ valNames vals := by
        rw [← mem_sortStrings, ← hvalDs]; exact List.mem_map_of_mem hd
      exact (h.fresh _ this).1
    · rcases hrefDs _ (List.mem_map_of_mem hd) with he | ⟨p, hp, he⟩
      · rw [he]; decide
      · rw [he]
        simp only [List.mem_cons, List.not_mem_nil, or_false, not_or]
        exact ⟨hrvNe p hp _ (by decide), hrvNe p hp _ (by decide), hrvNe p hp _ (by decide), hrvNe p hp _ (by decide), hrvNe p hp _ (by decide)⟩
  have hvd : ∀ x ∈ valNames vals, ValDecl decls x := fun x hx =>
    find_decl hnd (d := ⟨x, true, b! "jsval", b! "JSVal"⟩) (List.mem_append_left _ (List.mem_map_of_mem (mem_sortStrings.2 hx))) rfl
  have hnv : ((nameVals 0 vals).map (·.name)) = valNames vals := hnames
  have hsvn : (sortVals (nameVals 0 vals)).map (·.name) |>.Perm (valNames vals) := by
    rw [← hnames]; exact (List.perm_insertionSort _ _).map _
  -- table facts for the validators
  have htblv : ∀ r ∈ tbl, ∃ p ∈ rv, p.1 = r.1 ∧ alookup r.1 rv = some p.2 ∧ alookup p.1 tbl = some r.2 := by
    intro r hr
    have h1 : r.1 ∈ rv.map (·.1) := by rw [hrv1, mem_sortStrings]; exact List.mem_map_of_mem hr
    obtain ⟨x, hx⟩ := alookup_isSome.2 h1
    exact ⟨(r.1, x), alookup_mem hx, rfl, hx, alookup_of_mem htn hr⟩
  have hvalsOk : ∀ v ∈ sortVals (nameVals 0 vals), GoIdent v.name ∧ (hasRefs vals = true → v.name ≠ b! "M") ∧ ValDecl decls v.name ∧
      ∃ c, v.root = some c ∧ P c ∧ ∀ r ∈ tbl, v.same r.1 = true → r.2 = c := by
    intro v hv
    rw [mem_sortVals] at hv
    have hvn : v.name ∈ valNames vals := by rw [← hnames]; exact List.mem_map_of_mem hv
    obtain ⟨w, hw, e1, e2, e3⟩ := mem_nameVals hv
    obtain ⟨c, hc, hg⟩ := h.roots w hw
    refine ⟨h.idents _ hvn, ?_, hvd _ hvn, c, by rw [e2]; exact hc, hg, ?_⟩
    · intro hh he
      exact (h.fresh _ hvn).2 (by rw [hown, if_pos hh, he]; exact List.mem_cons_self ..)
    · intro r hr hs
      have := h.same w hw r.1 r.2 (by rw [← hlk]; exact alookup_of_mem htn hr) (by rw [← e3]; exact hs)
      rw [hc] at this
      exact (Option.some.inj this).symm
  have hfinal : ∀ mem : Mem, (∀ v ∈ sortVals (nameVals 0 vals), ∀ c, v.root = some c →
      alookup v.name mem.vars = some (.jv ⟨v.name, if hasRefs vals then some 0 else none, some (f c)⟩)) →
      ∀ (i : Nat) (v : GenVal) (c : Constraint), vals[i]? = some v → v.root = some c → ∀ x, (valNames vals)[i]? = some x →
      alookup x mem.vars = some (.jv ⟨x, if hasRefs vals then some 0 else none, some (f c)⟩) := by
    intro mem hm i v c hv hc x hx
    have h1 := nameVals_get vals 0 i v hv
    have h2 : x = if v.name = [] then b! "V" ++ natDec (0 + i) else v.name := by
      have : ((nameVals 0 vals).map (·.name))[i]? = some x := by rw [hnames]; exact hx
      rw [List.getElem?_map, h1] at this
      simpa using this.symm
    have := hm _ (mem_sortVals.2 (List.mem_of_getElem? h1)) c hc
    simp only at this
    rw [← h2] at this
    exact this
  obtain ⟨t1, e1, r1⟩ := valDecls_reads (sortStrings (valNames vals)) hids [] []
  have hlen := hasRefs_iff (σ := σ.sub 0) h.tables
  cases hR : hasRefs vals with
  | false =>
    rw [hR] at hlen hvalsOk hfinal hP
    have hl0 : ¬ tbl.length > 0 := by rw [hlen]; simp
    have ht0 : tbl = [] := List.length_eq_zero_iff.1 (by omega)
    obtain ⟨t2, mem, e2, sg, hm, _, hv⟩ := valAssign_seg (cm := []) (decls := decls) (tbl := tbl)
      (vars := rv) hP (σ.sub 2) (sortVals (nameVals 0 vals)) 0 ⟨[], []⟩ (hsvn.nodup_iff.2 h.distinct) (by simp)
      (fun r hr => by rw [ht0] at hr; simp at hr) hvalsOk
    obtain ⟨stmts, hs1, hs2⟩ := sg.reads
    have hdecls : decls = valDs := by simp [decls, refDs, hR]
    refine ⟨t1 ++ (b! "\nfunc init() {" ++ (t2 ++ b! "\n}")), ⟨valDs, stmts⟩, mem, ?_, ?_, ?_, ?_, ⟨?_, ?_⟩⟩
    · unfold process
      simp only [← htbl, ← hrv, if_neg hl0, hnames, List.append_nil]
      have := catG_append e1 (catG_cons (b! "\nfunc init() {") (catG_append e2 (catG_one (b! "\n}"))))
      simpa using this
    · have hr := r1.append ((funcOpen_reads _ []).append ((hs1 _ []).append (funcClose_reads _ _)))
      have := hr.prog
      simpa [valDs] using this
    · simp [valDs]
    · unfold Prog.run
      simp only
      rw [← hdecls, if_pos hok]
      exact hs2
    · intro n
      rw [← hlk, ht0]
      simp [Mem.env, hm, alookup]
    · rw [hR]; exact hfinal mem hv
  | true =>
    rw [hR] at hlen hvalsOk hfinal hP
    have hl1 : tbl.length > 0 := by rw [hlen]
    have hdecls : decls = valDs ++ (⟨b! "M", true, b! "jsval", b! "ConstraintMap"⟩ ::
      rv.map (fun p => ⟨p.2, false, b! "jsval", b! "Constraint"⟩)) := by simp [decls, refDs, hR]
    have hMd : decls.find? (fun d => decide (d.name = b! "M")) = some ⟨b! "M", true, b! "jsval", b! "ConstraintMap"⟩ :=
      find_decl hnd (by rw [hdecls]; simp) rfl
    have hrd : ∀ p ∈ rv, ConDecl decls p.2 := fun p hp =>
      find_decl hnd (d := ⟨p.2, false, b! "jsval", b! "Constraint"⟩) (by
        rw [hdecls]
        exact List.mem_append_right _ (List.mem_cons_of_mem _ (List.mem_map_of_mem (f := fun p : GoStr × GoStr => (⟨p.2, false, b! "jsval", b! "Constraint"⟩ : VarDecl)) hp))) rfl
    obtain ⟨t1', e1', r1'⟩ := refDecls_reads rv hrvId
      (⟨b! "M", true, b! "jsval", b! "ConstraintMap"⟩ :: ((sortStrings (valNames vals)).map (fun n => (⟨n, true, b! "jsval", b! "JSVal"⟩ : VarDecl))).reverse ++ []) []
    have sg0 := newMap_seg (decls := decls) (s := ⟨[], []⟩) hMd (by rfl)
    set s1 : Mem := { vars := ainsert (b! "M") (.cmap 0) [], maps := [] ++ [[]] } with hs1
    have hrvc : ∀ p ∈ rv, ∃ c, alookup p.1 tbl = some c ∧ P c := by
      intro p hp
      have : p.1 ∈ tbl.map (·.1) := by
        rw [← mem_sortStrings, ← hrv1]; exact List.mem_map_of_mem hp
      obtain ⟨c, hc⟩ := alookup_isSome.2 this
      exact ⟨c, hc, hGen p.1 c (by rw [← hlk]; exact hc)⟩
    obtain ⟨t2, s2, e2, sg2, hm2, hv2, hc2⟩ := refAssign_seg (decls := decls) (tbl := tbl) hP (σ.sub 1) rv 0 s1 rfl hrv2
      (fun p hp => ⟨hrvId p hp, hrvNe p hp _ (by decide), hrd p hp, hrvc p hp⟩)
    have hM2 : alookup (b! "M") s2.vars = some (.cmap 0) := by
      rw [hv2]
      · rfl
      · rw [List.mem_map]
        rintro ⟨p, hp, he⟩
        exact hrvNe p hp (b! "M") (by decide) he
    obtain ⟨t3, s3, T, e3, sg3, hm3, hv3, hT1, hT2⟩ := setRefs_seg (isPrint := isPrint) (decls := decls) (tbl := tbl) rv s2 [] (by rw [hm2]; rfl)
      hM2 (by rw [hrv1]; exact (sortStrings_perm _).nodup_iff.2 htn)
      (fun p hp => by
        obtain ⟨c, hc, _⟩ := hrvc p hp
        exact ⟨hrvId p hp, hrvNe p hp _ (by decide), hrvNe p hp _ (by decide), c, hc, hc2 p hp c hc⟩)
    obtain ⟨t4, mem, e4, sg4, hm4, hv4, hc4⟩ := valAssign_seg (cm := b! "M") (decls := decls) (tbl := tbl)
      (vars := rv) hP (σ.sub 2) (sortVals (nameVals 0 vals)) 0 s3 (hsvn.nodup_iff.2 h.distinct) (by
        rw [if_pos rfl, hv3]
        exact ⟨rfl, hM2⟩)
      (fun r hr => by
        obtain ⟨p, hp, hp1, hp2, hp3⟩ := htblv r hr
        refine ⟨p.2, hp2, hrvId p hp, hrvNe p hp _ (by decide), hrvNe p hp _ (by decide), ?_, ?_⟩
        · intro v hv he
          have hvn : v.name ∈ valNames vals := hsvn.mem_iff.1 (List.mem_map_of_mem hv)
          exact (h.fresh _ hvn).2 (by rw [hown, if_pos hR, he]; exact List.mem_cons_of_mem _ (List.mem_map_of_mem hp))
        · rw [hv3]; exact hc2 p hp r.2 hp3) hvalsOk
    obtain ⟨stmts, hs1', hs2'⟩ := (sg0.append (sg2.append (sg3.append sg4))).reads
    refine ⟨t1 ++ ((b! "\nvar M *jsval.ConstraintMap" ++ t1') ++ (b! "\nfunc init() {" ++
      ((b! "\nM = &jsval.ConstraintMap{}" ++ (t2 ++ (t3 ++ t4))) ++ b! "\n}"))), ⟨decls, stmts⟩, mem, ?_, ?_, ?_, ?_, ⟨?_, ?_⟩⟩
    · unfold process
      simp only [← htbl, ← hrv, if_pos hl1, hnames]
      have := catG_append e1 (catG_cons (b! "\nvar M *jsval.ConstraintMap") (catG_append e1' (catG_cons (b! "\nfunc init() {")
        (catG_cons (b! "\nM = &jsval.ConstraintMap{}") (catG_append e2 (catG_append e3 (catG_append e4 (catG_one (b! "\n}")))))))))
      simpa using this
    · have hr := r1.append (((ptrDecl_reads (x := b! "M") (T := b! "ConstraintMap") ⟨⟨_, _, rfl, by decide⟩, by decide, by decide⟩ (fun _ _ => ⟨rfl, rfl⟩) _ _).append r1').append
        ((funcOpen_reads _ []).append ((hs1' _ []).append (funcClose_reads _ _))))
      have := hr.prog
      simpa [decls, refDs, valDs, hR] using this
    · simp [decls, refDs, valDs, hR]
    · unfold Prog.run
      simp only
      rw [if_pos hok]
      exact hs2'
    · intro n
      rw [← hlk]
      have : mem.env 0 n = alookup n T := by simp [Mem.env, hm4, hm3]
      rw [this]
      by_cases hn : n ∈ rv.map (·.1)
      · rw [List.mem_map] at hn
        obtain ⟨p, hp, rfl⟩ := hn
        exact hT2 p hp
      · rw [hT1 n hn]
        rw [hrv1, mem_sortStrings] at hn
        rw [alookup_eq_none.2 hn]
        rfl
    · rw [hR]; exact hfinal mem hc4

/-- What the program has set up once it has run: everything as rebuilt. -/
abbrev SetUp (vals : List GenVal) (mem : Mem) : Prop := SetUpBy (rebuild 0) vals mem

theorem SupportedD.genTogether {ints : Prop} {vals : List GenVal} (h : SupportedD ints vals) :
    GenTogether (fun c => c.Every (Constraint.GenD ints (hasRefs vals))) vals :=
  ⟨h.tables, h.idents, h.distinct, h.fresh, h.roots, h.refs, h.same⟩

theorem process_setUp {isPrint : Nat → Bool} {vals : List GenVal} {ints : Prop} (h : SupportedD ints vals) (σ : Sched) :
    ∃ t p mem, process isPrint vals σ = .ok t ∧ parseProg t = some p ∧
      p.decls = (sortStrings (valNames vals)).map (fun n => ⟨n, true, b! "jsval", b! "JSVal"⟩) ++
        (if hasRefs vals then ⟨b! "M", true, b! "jsval", b! "ConstraintMap"⟩ ::
          (refVars 0 (sortStrings ((mergeAll (σ.sub 0) 0 vals []).map (·.1)))).map (fun p => ⟨p.2, false, b! "jsval", b! "Constraint"⟩) else []) ∧
      p.run = some mem ∧ SetUp vals mem := process_setUpBy carries_rebuild h.genTogether σ

end Jsval
