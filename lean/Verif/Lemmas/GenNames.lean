import Verif.Lemmas.GenMain
/-!
# Names in the generated program: when it declares something twice
-/
namespace Jsval
open Go

theorem catG_oks : ∀ (l : List GoStr) (r : List G) (t : GoStr), catG (l.map .ok ++ r) = .ok t → ∃ u, t = l.flatten ++ u ∧ catG r = .ok u
  | [], r, t, h => ⟨t, rfl, h⟩
  | x :: l, r, t, h => by
    rw [List.map_cons, List.cons_append, catG] at h
    cases hc : catG (l.map .ok ++ r) with
    | error e => rw [hc] at h; cases h
    | ok y =>
      rw [hc] at h
      cases h
      obtain ⟨u, rfl, hu⟩ := catG_oks l r y hc
      exact ⟨u, by simp, hu⟩

/-! ## The reader never takes back what it has read -/

theorem lexNormal_out (s : LSt) (c : UInt8) : s.out <:+ (lexNormal s c).out := by
  unfold lexNormal
  split_ifs <;> first | exact List.suffix_rfl | exact List.suffix_cons ..

theorem settle_out (s : LSt) : s.out <:+ (settle s).out := by
  unfold settle
  split <;> first | exact List.suffix_rfl | exact List.suffix_cons ..

theorem lexStep_out (s : LSt) (c : UInt8) : s.out <:+ (lexStep s c).out := by
  have h : s.out <:+ (lexNormal (settle s) c).out := (settle_out s).trans (lexNormal_out _ _)
  unfold lexStep
  repeat' split
  all_goals first | exact List.suffix_rfl | exact List.suffix_cons .. | exact lexNormal_out _ _ | exact h | (dsimp only; split <;> exact List.suffix_rfl)

theorem lexRun_out : ∀ (t : GoStr) (s : LSt), s.out <:+ (lexRun s t).out
  | [], _ => List.suffix_rfl
  | c :: t, s => by
    rw [lexRun_cons]
    exact (lexStep_out s c).trans (lexRun_out t _)

theorem parseStep_decls (s : PSt) (t : Tok) : s.decls <:+ (parseStep s t).decls := by
  unfold parseStep
  repeat' split
  all_goals first | exact List.suffix_rfl | exact List.suffix_cons ..

theorem parseRun_decls : ∀ (l : List Tok) (s : PSt), s.decls <:+ (parseRun s l).decls
  | [], _ => List.suffix_rfl
  | k :: l, s => (parseStep_decls s k).trans (parseRun_decls l _)

/-- What has been declared by the lines that have been read is declared by the program. -/
theorem Reads.decls {t u : GoStr} {p : PSt} {q : Prog} (h : Reads t ⟨[], [], .top⟩ p) (hq : parseProg (t ++ 0x0A :: u) = some q) :
    p.decls.reverse <+: q.decls := by
  obtain ⟨ks, h1, h2⟩ := h _ _ Ready.start
  unfold parseProg at hq
  split at hq
  · cases hq
  · next l hl =>
    unfold lex at hl
    rw [lexRun_append, lexRun_cons, h1] at hl
    simp only at hl
    split at hl
    · have hs : ks.reverse <:+ (lexStep (lexRun ⟨ks.reverse ++ [], .normal, false⟩ u) 0x0A).out := by
        have := (lexRun_out u ⟨ks.reverse ++ [], .normal, false⟩).trans (lexStep_out _ 0x0A)
        simpa using this
      obtain ⟨more, hm⟩ := hs
      rw [← hm] at hl
      simp only [Option.some.injEq, List.reverse_append, List.reverse_reverse] at hl
      subst hl
      rw [parseRun_append, h2] at hq
      simp only at hq
      split at hq
      · cases hq
        exact List.reverse_prefix.2 (parseRun_decls _ _)
      · cases hq
    · cases hl

/-- A program that declares something twice cannot be run. -/
theorem process_clash {isPrint : Nat → Bool} {vals : List GenVal} {σ : Sched} {t : GoStr} {p : Prog} {mem : Mem}
    (ht : ∀ v ∈ vals, (v.refs.map (·.1)).Nodup) (hi : ∀ x ∈ valNames vals, GoIdent x)
    (h : process isPrint vals σ = .ok t) (hp : parseProg t = some p) (hr : p.run = some mem) :
    (valNames vals).Nodup ∧ ∀ x ∈ valNames vals, x ∉ takenNames ∧ x ∉ ownNames vals := by
  set rv := refVars 0 (sortStrings ((mergeAll (σ.sub 0) 0 vals []).map (·.1))) with hrv
  obtain ⟨t1, e1, r1⟩ := valDecls_reads (sortStrings (valNames vals)) (fun x hx => hi x (mem_sortStrings.1 hx)) [] []
  have hok : ∀ ds : List VarDecl, ds <+: p.decls → (ds.map (·.name)).Nodup ∧ ∀ x ∈ ds.map (·.name), x ∉ takenNames := by
    intro ds hds
    unfold Prog.run at hr
    split_ifs at hr with hd
    unfold declsOk at hd
    rw [Bool.and_eq_true, decide_eq_true_eq, List.all_eq_true] at hd
    refine ⟨hd.1.sublist (hds.sublist.map _), fun x hx => ?_⟩
    obtain ⟨d, hdm, rfl⟩ := List.mem_map.1 hx
    exact of_decide_eq_true (hd.2 d (hds.subset hdm))
  suffices hpre : ∃ ds : List VarDecl, ds <+: p.decls ∧ ds.map (·.name) = sortStrings (valNames vals) ++ ownNames vals by
    obtain ⟨ds, h1, h2⟩ := hpre
    obtain ⟨h3, h4⟩ := hok ds h1
    rw [h2] at h3 h4
    rw [List.nodup_append] at h3
    refine ⟨(sortStrings_perm _).nodup_iff.1 h3.1, fun x hx => ⟨h4 x (List.mem_append_left _ (mem_sortStrings.2 hx)), fun ho => ?_⟩⟩
    exact h3.2.2 x (mem_sortStrings.2 hx) x ho rfl
  have hlen := hasRefs_iff (σ := σ.sub 0) ht
  have hown := ownNames_eq (σ := σ.sub 0) ht
  rw [← hrv] at hown
  unfold process at h
  simp only [nameVals_valNames, ← hrv] at h
  have split2 : ∀ (a : List G) (b : List G) (s : GoStr), catG a = .ok s → ∀ t, catG (a ++ b) = .ok t → ∃ u, t = s ++ u ∧ catG b = .ok u := by
    intro a b
    induction a with
    | nil =>
      intro s hs t ht
      cases hs
      exact ⟨t, rfl, ht⟩
    | cons x a ih =>
      intro s hs t ht
      cases x with
      | error e => cases hs
      | ok x =>
        rw [catG] at hs
        rw [List.cons_append, catG] at ht
        cases ha : catG a with
        | error e => rw [ha] at hs; cases hs
        | ok s' =>
          rw [ha] at hs
          cases hs
          cases hb : catG (a ++ b) with
          | error e => rw [hb] at ht; cases ht
          | ok t' =>
            rw [hb] at ht
            cases ht
            obtain ⟨u, rfl, hu⟩ := ih s' ha t' hb
            exact ⟨u, by simp, hu⟩
  cases hR : hasRefs vals with
  | false =>
    have hl0 : ¬ (mergeAll (σ.sub 0) 0 vals []).length > 0 := by rw [hlen, hR]; simp
    rw [hR] at hown
    simp only [if_neg hl0, List.append_nil, List.append_assoc] at h
    obtain ⟨u, rfl, hu⟩ := split2 _ _ _ e1 _ h
    rw [List.cons_append, List.nil_append] at hu
    obtain ⟨u', rfl, -⟩ := split2 [_] _ _ (catG_one _) _ hu
    refine ⟨_, r1.decls (u := b! "func init() {" ++ u') (by simpa using hp), ?_⟩
    rw [hown]
    simp [List.map_map, Function.comp_def]
  | true =>
    have hl1 : (mergeAll (σ.sub 0) 0 vals []).length > 0 := by rw [hlen]; exact hR
    rw [hR] at hown
    simp only [if_pos hl1, List.append_assoc] at h
    obtain ⟨u, rfl, hu⟩ := split2 _ _ _ e1 _ h
    rw [List.cons_append, List.nil_append] at hu
    obtain ⟨u', rfl, hu'⟩ := split2 [_] _ _ (catG_one _) _ hu
    obtain ⟨t2, e2, r2⟩ := refDecls_reads rv (fun q hq => by
      obtain ⟨k, _, _, hk⟩ := refVars_snd _ _ q.2 (List.mem_map_of_mem hq)
      rw [hk]; exact refVar_ident k)
      (⟨b! "M", true, b! "jsval", b! "ConstraintMap"⟩ :: ((sortStrings (valNames vals)).map (fun n => (⟨n, true, b! "jsval", b! "JSVal"⟩ : VarDecl))).reverse ++ []) []
    obtain ⟨u2, rfl, hu2⟩ := split2 _ _ _ e2 _ hu'
    rw [List.cons_append, List.nil_append] at hu2
    obtain ⟨u3, rfl, -⟩ := split2 [_] _ _ (catG_one _) _ hu2
    have hr := r1.append ((ptrDecl_reads (x := b! "M") (T := b! "ConstraintMap") ⟨⟨_, _, rfl, by decide⟩, by decide, by decide⟩ (fun _ _ => ⟨rfl, rfl⟩) _ _).append r2)
    refine ⟨_, hr.decls (u := b! "func init() {" ++ u3) (by simpa using hp), ?_⟩
    rw [hown]
    simp [List.map_map, Function.comp_def]

end Jsval
