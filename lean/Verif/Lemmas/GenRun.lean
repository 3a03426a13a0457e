import Verif.Lemmas.GenProg
/-!
# Running the generated program
-/
namespace Jsval
open Go

variable {ρ : GoStr → Option Val}

/-! ## One validator -/

theorem ArgText.ident {x : GoStr} {v : Val} (hx : GoIdent x) (hp : Plain x) (h1 : x ≠ b! "true") (h2 : x ≠ b! "false") (hv : ρ x = some v) :
    ArgText ρ x v := by
  refine ⟨hp, [.ident x], .ident x, hx.lex.toA, ?_, by rw [eval_ident h1 h2]; exact hv⟩
  intro d s lhs stk c _
  simp [parseRun, parseStep, stepWant, hx.notKw]

theorem GoIdent.plain {x : GoStr} (hx : GoIdent x) : Plain x := by
  intro h
  rcases hx.all _ h with h | h <;> exact absurd h (by decide)

/-- Text that is an expression with this value, perhaps followed by a newline. -/
def BuildsNl (ρ : GoStr → Option Val) (t : GoStr) (v : Val) : Prop := ∃ b tail, t = b ++ tail ∧ Builds ρ b v ∧ (tail = [] ∨ tail = [0x0A])

theorem catG_nil : catG [] = .ok [] := rfl

theorem new_builds : Builds ρ (b! "jsval.New()") (.jv ⟨[], none, none⟩) :=
  Builds.pkgFunc (n := b! "New") (by decide) (fun _ _ => rfl) rfl

theorem closed_emit {t : GoStr} (hp : Plain t) (ht : ∃ u, t = u ++ [0x29]) : emitCode (.ok (t ++ [0x0A])) = .ok (t ++ [0x0A]) := by
  apply emitCode_plain
  · simp only [List.mem_append, not_or]
    exact ⟨hp, by decide⟩
  · rintro ⟨w, hw⟩
    obtain ⟨u, rfl⟩ := ht
    have h2 : w ++ [0x2E] ++ [0x0A] = u ++ [0x29] ++ [0x0A] := by
      rw [← hw]; simp
    have h3 := List.append_cancel_right h2
    have h4 := congrArg List.getLast? h3
    simp at h4

/-- The text for one validator. -/
theorem genValidator_builds {P : Constraint → Prop} {f : Constraint → Constraint} {isPrint : Nat → Bool} {cm : GoStr} {refs : Bool} {tbl : List (GoStr × Constraint)}
    {vars : List (GoStr × GoStr)} {v : GenVal} {c : Constraint} (hP : GenCarries isPrint refs P f) (hn : GoIdent v.name)
    (hcm : if refs then cm = b! "M" ∧ ρ (b! "M") = some (.cmap 0) else cm = [])
    (hroot : v.root = some c) (hg : P c)
    (hsame : ∀ r ∈ tbl, v.same r.1 = true → r.2 = c)
    (hvars : ∀ r ∈ tbl, ∃ x, alookup r.1 vars = some x ∧ GoIdent x ∧ x ≠ b! "true" ∧ x ≠ b! "false" ∧
      ρ x = some (.con (f r.2))) (σ : Sched) :
    ∃ t, emitCode (genValidator isPrint cm tbl vars v σ) = .ok t ∧
      BuildsNl ρ t (.jv ⟨v.name, if refs then some 0 else none, some (f c)⟩) := by
  have s1 : Step ρ (b! ".\nSetName(" ++ goQuote isPrint v.name ++ [0x29]) (.jv ⟨[], none, none⟩) (.jv ⟨v.name, none, none⟩) :=
    Step.one (n := b! "SetName") ⟨by decide, ⟨_, rfl⟩, fun _ _ => rfl⟩ (ArgText.quote hn.plain) rfl
  have b1 := (new_builds (ρ := ρ)).step s1
  have hmap : ∃ t2, (if cm ≠ [] then b! ".\nSetConstraintMap(" ++ cm ++ b! ")" else []) = t2 ∧
      Chain ρ t2 (.jv ⟨v.name, none, none⟩) (.jv ⟨v.name, if refs then some 0 else none, none⟩) := by
    cases refs with
    | false =>
      simp only [Bool.false_eq_true, if_false] at hcm
      subst hcm
      exact ⟨[], by simp, Chain.nil _⟩
    | true =>
      simp only [if_true] at hcm
      obtain ⟨rfl, hM⟩ := hcm
      refine ⟨b! ".\nSetConstraintMap(" ++ b! "M" ++ b! ")", by simp, ?_⟩
      refine Step.chain (Step.one (n := b! "SetConstraintMap") (x := .cmap 0) ⟨by decide, ⟨_, rfl⟩, fun _ _ => rfl⟩ ?_ rfl)
      exact ⟨by decide, [.ident (b! "M")], .ident (b! "M"), fun _ _ => ⟨rfl, rfl⟩, fun _ _ _ _ _ _ => rfl,
        by rw [eval_ident (by decide) (by decide)]; exact hM⟩
  obtain ⟨t2, e2, c2⟩ := hmap
  have b2 := b1.chain c2
  unfold genValidator
  cases hf : (shuffle (σ.sub 0).key tbl).find? (fun r => v.same r.1) with
  | some r =>
    have hr : r ∈ tbl := mem_shuffle.1 (List.mem_of_find?_eq_some hf)
    have hs : v.same r.1 = true := by simpa using List.find?_some hf
    obtain ⟨x, hx, hxi, hx1, hx2, hxv⟩ := hvars r hr
    rw [hsame r hr hs] at hxv
    have s3 : Step ρ (b! ".\nSetRoot(" ++ x ++ [0x29]) (.jv ⟨v.name, if refs then some 0 else none, none⟩)
        (.jv ⟨v.name, if refs then some 0 else none, some (f c)⟩) :=
      Step.one (n := b! "SetRoot") ⟨by decide, ⟨_, rfl⟩, fun _ _ => rfl⟩ (ArgText.ident hxi hxi.plain hx1 hx2 hxv) rfl
    have b3 := b2.step s3
    refine ⟨_, ?_, _, [], (List.append_nil _).symm, b3, .inl rfl⟩
    have e : catG ([.ok (b! "jsval.New()"), .ok (b! ".\nSetName(" ++ goQuote isPrint v.name ++ b! ")"),
        .ok (if cm ≠ [] then b! ".\nSetConstraintMap(" ++ cm ++ b! ")" else [])] ++
        [.ok (b! ".\nSetRoot(" ++ (alookup r.1 vars).getD [] ++ b! ")")]) =
        .ok (b! "jsval.New()" ++ (b! ".\nSetName(" ++ goQuote isPrint v.name ++ [0x29]) ++ t2 ++ (b! ".\nSetRoot(" ++ x ++ [0x29])) := by
      rw [e2, hx]
      simp [catG]
    simp only
    rw [e]
    exact b3.emit
  | none =>
    obtain ⟨t, ht, hb⟩ := hP ρ cm (fun h => by rw [h] at hcm; simpa using hcm) c hg (σ.sub 1)
    have s3 : Step ρ (b! ".\nSetRoot(\n" ++ (t ++ b! ",\n)")) (.jv ⟨v.name, if refs then some 0 else none, none⟩)
        (.jv ⟨v.name, if refs then some 0 else none, some (f c)⟩) :=
      Step.sub (n := b! "SetRoot") ⟨by decide, ⟨_, rfl⟩, fun _ _ => rfl⟩ hb rfl
    have b3 := b2.step s3
    refine ⟨_, ?_, _, [0x0A], rfl, b3, .inr rfl⟩
    have e : catG ([.ok (b! "jsval.New()"), .ok (b! ".\nSetName(" ++ goQuote isPrint v.name ++ b! ")"),
        .ok (if cm ≠ [] then b! ".\nSetConstraintMap(" ++ cm ++ b! ")" else [])] ++
        [.ok (b! ".\nSetRoot(\n"), .ok t, .ok (b! ",\n)\n")]) =
        .ok (b! "jsval.New()" ++ (b! ".\nSetName(" ++ goQuote isPrint v.name ++ [0x29]) ++ t2 ++ (b! ".\nSetRoot(\n" ++ (t ++ b! ",\n)")) ++ [0x0A]) := by
      rw [e2]
      simp [catG]
    simp only [hroot, ht]
    rw [e]
    refine closed_emit b3.noPct ?_
    obtain ⟨u, hu⟩ := s3.fin
    exact ⟨_, by rw [hu, ← List.append_assoc]⟩

/-! ## Reference variables -/

theorem refVars_fst : ∀ (l : List GoStr) (i : Nat), (refVars i l).map (·.1) = l
  | [], _ => rfl
  | n :: l, i => by rw [refVars, List.map_cons, refVars_fst l (i + 1)]

theorem refVars_snd : ∀ (l : List GoStr) (i : Nat) (x : GoStr), x ∈ (refVars i l).map (·.2) → ∃ k, i ≤ k ∧ k < i + l.length ∧ x = b! "R" ++ natDec k
  | [], _, x, h => by simp [refVars] at h
  | n :: l, i, x, h => by
    rw [refVars, List.map_cons, List.mem_cons] at h
    rcases h with h | h
    · exact ⟨i, le_refl _, by simp, h⟩
    · obtain ⟨k, hk, hl, hx⟩ := refVars_snd l (i + 1) x h
      exact ⟨k, by omega, by rw [List.length_cons]; omega, hx⟩

theorem refVars_all : ∀ (l : List GoStr) (i : Nat), (refVars i l).map (·.2) = (List.range l.length).map (fun k => b! "R" ++ natDec (i + k))
  | [], _ => rfl
  | n :: l, i => by
    rw [refVars, List.map_cons, refVars_all l (i + 1), List.length_cons, List.range_succ_eq_map, List.map_cons, List.map_map]
    congr 1
    refine List.map_congr_left fun k _ => ?_
    simp only [Function.comp]
    rw [show i + 1 + k = i + (k + 1) by omega]

theorem natDec_inj {i j : Nat} (h : natDec i = natDec j) : i = j := by
  have h1 := (lexA_nat i [] false).2
  have h2 := (lexA_nat j [] false).2
  rw [h, h2] at h1
  simpa using h1.symm

theorem refVars_nodup : ∀ (l : List GoStr) (i : Nat), ((refVars i l).map (·.2)).Nodup
  | [], _ => by simp [refVars]
  | n :: l, i => by
    rw [refVars, List.map_cons, List.nodup_cons]
    refine ⟨fun h => ?_, refVars_nodup l (i + 1)⟩
    obtain ⟨k, hk, _, hx⟩ := refVars_snd l (i + 1) _ h
    have := natDec_inj (List.append_cancel_left hx)
    omega

theorem natDec_digits (n : Nat) : ∀ c ∈ natDec n, isDigit c = true := by
  unfold natDec
  split_ifs with h
  · intro c hc
    rw [List.mem_singleton] at hc
    subst hc
    decide
  · intro c hc
    rw [List.mem_map] at hc
    obtain ⟨d, hd, rfl⟩ := hc
    have : d < 10 := Nat.digits_lt_base (by norm_num) (List.mem_reverse.1 hd)
    interval_cases d <;> decide

theorem numbered_ident {p : UInt8} (hp : isLetter p = true) (hk : ∀ k ∈ goKeywords, k.head? ≠ some p) (n : Nat) : GoIdent (p :: natDec n) := by
  refine ⟨⟨p, _, rfl, hp⟩, ?_, fun h => hk _ h rfl⟩
  intro c hc
  rw [List.mem_cons] at hc
  rcases hc with rfl | hc
  · exact .inl hp
  · exact .inr (natDec_digits n c hc)

theorem refVar_ident (k : Nat) : GoIdent (b! "R" ++ natDec k) := numbered_ident (p := 0x52) (by decide) (by decide) k

theorem refVar_ne {k : Nat} {x : GoStr} (h : x.head? ≠ some 0x52) : b! "R" ++ natDec k ≠ x := by
  rintro rfl
  exact h rfl

/-! ## Statements in sequence -/

theorem ainsert_lookup_ne {β : Type} {k k' : GoStr} {v : β} {l : List (GoStr × β)} (h : k ≠ k') : alookup k (ainsert k' v l) = alookup k l :=
  alookup_ainsert_ne h v l

/-- The variable is declared as a constraint. -/
def ConDecl (decls : List VarDecl) (x : GoStr) : Prop :=
  decls.find? (fun d => decide (d.name = x)) = some ⟨x, false, b! "jsval", b! "Constraint"⟩

/-- The variable is declared as a validator. -/
def ValDecl (decls : List VarDecl) (x : GoStr) : Prop :=
  decls.find? (fun d => decide (d.name = x)) = some ⟨x, true, b! "jsval", b! "JSVal"⟩

theorem refAssign_seg {P : Constraint → Prop} {f : Constraint → Constraint} {isPrint : Nat → Bool} {decls : List VarDecl}
    {tbl : List (GoStr × Constraint)} (hP : GenCarries isPrint true P f) (σ : Sched) :
    ∀ (rv : List (GoStr × GoStr)) (i : Nat) (s : Mem), alookup (b! "M") s.vars = some (.cmap 0) → (rv.map (·.2)).Nodup →
    (∀ p ∈ rv, GoIdent p.2 ∧ p.2 ≠ b! "M" ∧ ConDecl decls p.2 ∧ ∃ c, alookup p.1 tbl = some c ∧ P c) →
    ∃ t s', catG (genRefAssign isPrint (b! "M") tbl σ i rv) = .ok t ∧ Seg decls t s s' ∧ s'.maps = s.maps ∧
      (∀ x, x ∉ rv.map (·.2) → alookup x s'.vars = alookup x s.vars) ∧
      ∀ p ∈ rv, ∀ c, alookup p.1 tbl = some c → alookup p.2 s'.vars = some (.con (f c))
  | [], i, s, _, _, _ => ⟨[], s, rfl, Seg.nil _ _, rfl, fun _ _ => rfl, fun p hp => by simp at hp⟩
  | (n, x) :: rv, i, s, hM, hnd, h => by
    obtain ⟨hx, hxM, hd, c, hc, hg⟩ := h _ (List.mem_cons_self ..)
    simp only at hx hxM hd hc
    obtain ⟨t, ht, hb⟩ := hP (fun y => alookup y s.vars) (b! "M") (fun _ => ⟨rfl, hM⟩) c hg (σ.sub i)
    have sg := assign_seg (decls := decls) (s := s) hx hb hd (by rfl)
    rw [List.map_cons, List.nodup_cons] at hnd
    obtain ⟨u, s', hu, hs, hm, h1, h2⟩ := refAssign_seg (decls := decls) (tbl := tbl) hP σ rv (i + 1)
      { s with vars := ainsert x (.con (f c)) s.vars } (by
        show alookup (b! "M") (ainsert x _ s.vars) = _
        rw [alookup_ainsert_ne (Ne.symm hxM)]; exact hM) hnd.2 (fun p hp => h p (List.mem_cons_of_mem _ hp))
    refine ⟨b! "\n" ++ x ++ b! " = " ++ t ++ u, s', ?_, sg.append hs, hm, ?_, ?_⟩
    · rw [genRefAssign]
      have hdrop : dropSpace t = t := by
        obtain ⟨t', rfl⟩ := hb.start
        unfold dropSpace
        rw [List.dropWhile_cons_of_neg (by decide)]
        simp
      refine (catG_append (s := b! "\n" ++ x ++ b! " = " ++ t) ?_ hu).trans rfl
      rw [hc]
      simp only [ht, Except.map, hdrop]
      exact catG_cons _ (catG_one _)
    · intro y hy
      rw [List.map_cons, List.mem_cons, not_or] at hy
      rw [h1 y hy.2]
      exact alookup_ainsert_ne hy.1 _ _
    · intro p hp d hd'
      rcases List.mem_cons.1 hp with rfl | hp
      · simp only at hd' ⊢
        rw [hc, Option.some.injEq] at hd'
        subst hd'
        rw [h1 x hnd.1]
        exact alookup_ainsert_self _ _ _
      · exact h2 p hp d hd'

theorem setRefs_seg {f : Constraint → Constraint} {isPrint : Nat → Bool} {decls : List VarDecl} {tbl : List (GoStr × Constraint)} :
    ∀ (rv : List (GoStr × GoStr)) (s : Mem) (T : List (GoStr × Constraint)), s.maps = [T] → alookup (b! "M") s.vars = some (.cmap 0) →
    (rv.map (·.1)).Nodup →
    (∀ p ∈ rv, GoIdent p.2 ∧ p.2 ≠ b! "true" ∧ p.2 ≠ b! "false" ∧ ∃ c, alookup p.1 tbl = some c ∧ alookup p.2 s.vars = some (.con (f c))) →
    ∃ t s' T', catG (rv.map (fun p => .ok (b! "\n" ++ b! "M" ++ b! ".SetReference(" ++ goQuote isPrint p.1 ++ b! ", " ++ p.2 ++ b! ")"))) = .ok t ∧
      Seg decls t s s' ∧ s'.maps = [T'] ∧ s'.vars = s.vars ∧
      (∀ n, n ∉ rv.map (·.1) → alookup n T' = alookup n T) ∧
      ∀ p ∈ rv, alookup p.1 T' = (alookup p.1 tbl).map (f)
  | [], s, T, hT, _, _, _ => ⟨[], s, T, rfl, Seg.nil _ _, hT, rfl, fun _ _ => rfl, fun p hp => by simp at hp⟩
  | (n, x) :: rv, s, T, hT, hM, hnd, h => by
    obtain ⟨hx, hx1, hx2, c, hc, hv⟩ := h _ (List.mem_cons_self ..)
    simp only at hx hx1 hx2 hc hv
    have sg := setRef_seg (isPrint := isPrint) (decls := decls) (n := n) hx hx1 hx2 hM hv
    rw [List.map_cons, List.nodup_cons] at hnd
    obtain ⟨u, s', T', hu, hs, hm, hvv, h1, h2⟩ := setRefs_seg (isPrint := isPrint) (decls := decls) (tbl := tbl) rv
      { s with maps := s.maps.modify 0 (fun t => ainsert n (f c) t) } (ainsert n (f c) T) (by simp [hT]) hM hnd.2
      (fun p hp => h p (List.mem_cons_of_mem _ hp))
    refine ⟨b! "\nM.SetReference(" ++ goQuote isPrint n ++ b! ", " ++ x ++ b! ")" ++ u, s', T', ?_, sg.append hs, hm, hvv, ?_, ?_⟩
    · rw [List.map_cons]
      exact catG_cons _ hu
    · intro y hy
      rw [List.map_cons, List.mem_cons, not_or] at hy
      rw [h1 y hy.2]
      exact alookup_ainsert_ne hy.1 _ _
    · intro p hp
      rcases List.mem_cons.1 hp with rfl | hp
      · simp only
        rw [h1 n hnd.1, alookup_ainsert_self, hc]
        rfl
      · exact h2 p hp

theorem valAssign_seg {P : Constraint → Prop} {f : Constraint → Constraint} {isPrint : Nat → Bool} {cm : GoStr} {refs : Bool}
    {decls : List VarDecl} {tbl : List (GoStr × Constraint)} {vars : List (GoStr × GoStr)} (hP : GenCarries isPrint refs P f) (σ : Sched) :
    ∀ (vs : List GenVal) (i : Nat) (s : Mem), (vs.map (·.name)).Nodup →
    (if refs then cm = b! "M" ∧ alookup (b! "M") s.vars = some (.cmap 0) else cm = []) →
    (∀ r ∈ tbl, ∃ x, alookup r.1 vars = some x ∧ GoIdent x ∧ x ≠ b! "true" ∧ x ≠ b! "false" ∧ (∀ v ∈ vs, v.name ≠ x) ∧
      alookup x s.vars = some (.con (f r.2))) →
    (∀ v ∈ vs, GoIdent v.name ∧ (refs = true → v.name ≠ b! "M") ∧ ValDecl decls v.name ∧ ∃ c, v.root = some c ∧ P c ∧
      ∀ r ∈ tbl, v.same r.1 = true → r.2 = c) →
    ∃ t s', catG (genValAssign isPrint cm tbl vars σ i vs) = .ok t ∧ Seg decls t s s' ∧ s'.maps = s.maps ∧
      (∀ x, x ∉ vs.map (·.name) → alookup x s'.vars = alookup x s.vars) ∧
      ∀ v ∈ vs, ∀ c, v.root = some c →
        alookup v.name s'.vars = some (.jv ⟨v.name, if refs then some 0 else none, some (f c)⟩)
  | [], i, s, _, _, _, _ => ⟨[], s, rfl, Seg.nil _ _, rfl, fun _ _ => rfl, fun p hp => by simp at hp⟩
  | v :: vs, i, s, hnd, hM, ht, h => by
    obtain ⟨hn, hnM, hd, c, hroot, hg, hsame⟩ := h v (List.mem_cons_self ..)
    obtain ⟨t, he, b, tail, htt, hb, htail⟩ := genValidator_builds (ρ := fun y => alookup y s.vars) (vars := vars) hP hn hM hroot hg hsame
      (fun r hr => by
        obtain ⟨x, h1, h2, h3, h4, _, h5⟩ := ht r hr
        exact ⟨x, h1, h2, h3, h4, h5⟩) (σ.sub i)
    have sg := assign_seg (decls := decls) (s := s) hn hb hd (by rfl)
    rw [List.map_cons, List.nodup_cons] at hnd
    obtain ⟨u, s', hu, hs, hm, h1, h2⟩ := valAssign_seg (cm := cm) (decls := decls) (tbl := tbl) (vars := vars) hP σ vs (i + 1)
      { s with vars := ainsert v.name (.jv ⟨v.name, if refs then some 0 else none, some (f c)⟩) s.vars } hnd.2 (by
        cases refs with
        | false => simpa using hM
        | true =>
          simp only [if_true] at hM ⊢
          refine ⟨hM.1, ?_⟩
          rw [alookup_ainsert_ne (Ne.symm (hnM rfl))]
          exact hM.2)
      (fun r hr => by
        obtain ⟨x, h1, h2, h3, h4, h5, h6⟩ := ht r hr
        refine ⟨x, h1, h2, h3, h4, fun w hw => h5 w (List.mem_cons_of_mem _ hw), ?_⟩
        show alookup x (ainsert v.name _ s.vars) = _
        rw [alookup_ainsert_ne (Ne.symm (h5 v (List.mem_cons_self ..)))]
        exact h6)
      (fun w hw => h w (List.mem_cons_of_mem _ hw))
    refine ⟨b! "\n" ++ v.name ++ b! " = " ++ t ++ u, s', ?_, ?_, hm, ?_, ?_⟩
    · rw [genValAssign]
      refine (catG_append (s := b! "\n" ++ v.name ++ b! " = " ++ t) ?_ hu).trans rfl
      rw [he]
      exact catG_cons _ (catG_one _)
    · refine Seg.append ?_ hs
      rw [htt, ← List.append_assoc]
      refine sg.append ?_
      rcases htail with rfl | rfl
      · exact Seg.nil _ _
      · exact Seg.blank _ _
    · intro y hy
      rw [List.map_cons, List.mem_cons, not_or] at hy
      rw [h1 y hy.2]
      exact alookup_ainsert_ne hy.1 _ _
    · intro w hw d hd'
      rcases List.mem_cons.1 hw with rfl | hw
      · rw [hroot, Option.some.injEq] at hd'
        subst hd'
        rw [h1 _ hnd.1]
        exact alookup_ainsert_self _ _ _
      · exact h2 w hw d hd'

end Jsval
