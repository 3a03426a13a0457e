import Verif.Spec.Scalar
/-!
# The domain-name automaton recognises exactly the well-formed names
-/
namespace Jsval

/-- Split at dots. -/
def segs : GoStr → List GoStr
  | [] => [[]]
  | c :: cs =>
    if c = 46 then [] :: segs cs
    else match segs cs with
      | h :: t => (c :: h) :: t
      | [] => [[c]]

theorem segs_ne (s : GoStr) : segs s ≠ [] := by
  cases s with
  | nil => simp [segs]
  | cons c cs =>
    simp only [segs]
    split
    · simp
    · split <;> simp

/-- All but the last segment are labels, the last one is a label or empty. -/
def segsOk : List GoStr → Prop
  | [] => True
  | [l] => l = [] ∨ LabelOk l
  | l :: ls => LabelOk l ∧ segsOk ls

/-- Prepend to the first segment. -/
def consSeg (cur : GoStr) : List GoStr → List GoStr
  | [] => [cur]
  | h :: t => (cur ++ h) :: t

theorem segsOk_cons {l : GoStr} {ls : List GoStr} (h : ls ≠ []) : segsOk (l :: ls) ↔ LabelOk l ∧ segsOk ls := by
  cases ls with
  | nil => exact absurd rfl h
  | cons => simp [segsOk]

/-- A label in progress. -/
structure Partial (cur : GoStr) : Prop where
  bytes : ∀ c ∈ cur, LabelByte c
  first : cur.head? ≠ some 45

/-- The state reflects the label in progress. -/
structure DomInv (st : DomSt) (cur : GoStr) : Prop where
  part : Partial cur
  len : st.partlen = cur.length
  lst : st.last = cur.getLast?.getD 46

/-- The checks after the loop, apart from the letter flag (string.go:176). -/
def domFinal (o : Option DomSt) : Prop := ∃ st, o = some st ∧ st.last ≠ 45 ∧ st.partlen ≤ 63

theorem isLetterByte_iff (c : UInt8) : isLetterByte c = true ↔ LetterByte c := by
  simp [isLetterByte, LetterByte, or_assoc]

theorem isDigitByte_iff (c : UInt8) : isDigitByte c = true ↔ (48 ≤ c ∧ c ≤ 57) := by
  simp [isDigitByte]

theorem labelByte_iff (c : UInt8) : LabelByte c ↔ isLetterByte c = true ∨ isDigitByte c = true ∨ c = 45 := by
  rw [isLetterByte_iff, isDigitByte_iff]
  simp [LabelByte, LetterByte, or_assoc]

theorem labelByte_ne_dot {c : UInt8} (h : LabelByte c) : c ≠ 46 := by
  rintro rfl
  revert h
  unfold LabelByte
  decide

theorem getLast?_getD_append (l : GoStr) (c d : UInt8) : (l ++ [c]).getLast?.getD d = c := by simp

theorem DomInv.cons {st : DomSt} {cur : GoStr} (h : DomInv st cur) {c : UInt8} (hc : LabelByte c)
    (hd : c = 45 → cur ≠ []) (ok : Bool) : DomInv ⟨c, ok, st.partlen + 1⟩ (cur ++ [c]) where
  part := {
    bytes := by
      intro x hx
      rcases List.mem_append.1 hx with hx | hx
      · exact h.part.bytes x hx
      · simp at hx; subst hx; exact hc
    first := by
      cases cur with
      | nil =>
        simp
        intro h'
        exact hd h' rfl
      | cons a l => simpa using h.part.first }
  len := by simp [h.len]
  lst := by simp

theorem last_eq_dot {st : DomSt} {cur : GoStr} (h : DomInv st cur) : st.last = 46 ↔ cur = [] := by
  rw [h.lst]
  cases hl : cur.getLast? with
  | none => simp at hl; simp [hl]
  | some c =>
    simp
    have hmem : c ∈ cur := List.mem_of_getLast? hl
    constructor
    · intro hc; exact absurd hc (labelByte_ne_dot (h.part.bytes c hmem))
    · rintro rfl; simp at hl

theorem last_eq_dash {st : DomSt} {cur : GoStr} (h : DomInv st cur) : st.last = 45 ↔ cur.getLast? = some 45 := by
  rw [h.lst]
  cases hl : cur.getLast? with
  | none => simp
  | some c => simp

theorem labelOk_iff {st : DomSt} {cur : GoStr} (h : DomInv st cur) :
    LabelOk cur ↔ st.last ≠ 46 ∧ st.last ≠ 45 ∧ st.partlen ≤ 63 := by
  constructor
  · intro hl
    exact ⟨fun h' => hl.ne ((last_eq_dot h).1 h'), fun h' => hl.last ((last_eq_dash h).1 h'), h.len ▸ hl.le⟩
  · rintro ⟨h1, h2, h3⟩
    exact ⟨fun h' => h1 ((last_eq_dot h).2 h'), h.len ▸ h3, h.part.bytes, h.part.first,
      fun h' => h2 ((last_eq_dash h).2 h')⟩

theorem consSeg_consSeg (a b : GoStr) (l : List GoStr) (hl : l ≠ []) :
    consSeg a (consSeg b l) = consSeg (a ++ b) l := by
  cases l with
  | nil => exact absurd rfl hl
  | cons => simp [consSeg]

theorem consSeg_segs_cons {cur cs : GoStr} {c : UInt8} (hc : c ≠ 46) :
    consSeg cur (segs (c :: cs)) = consSeg (cur ++ [c]) (segs cs) := by
  simp only [segs, if_neg hc]
  cases h : segs cs with
  | nil => exact absurd h (segs_ne cs)
  | cons a l => simp [consSeg]

theorem segsOk_bad {cur cs : GoStr} {c : UInt8} (hc : ¬ LabelByte c) (hd : c ≠ 46) :
    ¬ segsOk (consSeg cur (segs (c :: cs))) := by
  rw [consSeg_segs_cons hd]
  cases h : segs cs with
  | nil => exact absurd h (segs_ne cs)
  | cons a l =>
    intro hk
    have hb : LabelOk (cur ++ [c] ++ a) := by
      simp only [consSeg] at hk
      cases l with
      | nil =>
        rcases hk with hk | hk
        · simp at hk
        · exact hk
      | cons => exact hk.1
    exact hc (hb.bytes c (by simp))

theorem segsOk_dash {cs : GoStr} : ¬ segsOk (consSeg [] (segs (45 :: cs))) := by
  rw [consSeg_segs_cons (by decide)]
  cases h : segs cs with
  | nil => exact absurd h (segs_ne cs)
  | cons a l =>
    intro hk
    have hb : LabelOk ([] ++ [45] ++ a) := by
      simp only [consSeg] at hk
      cases l with
      | nil =>
        rcases hk with hk | hk
        · simp at hk
        · exact hk
      | cons => exact hk.1
    exact hb.first (by simp)

theorem domLoop_iff : ∀ (cs : GoStr) (st : DomSt) (cur : GoStr), DomInv st cur →
    (domFinal (domLoop cs st) ↔ segsOk (consSeg cur (segs cs)))
  | [], st, cur, h => by
    simp only [domLoop, segs, consSeg, List.append_nil, segsOk, domFinal]
    constructor
    · rintro ⟨st', h1, h2, h3⟩
      cases h1
      by_cases hc : cur = []
      · exact Or.inl hc
      · exact Or.inr ((labelOk_iff h).2 ⟨fun h' => hc ((last_eq_dot h).1 h'), h2, h3⟩)
    · rintro (rfl | hl)
      · refine ⟨st, rfl, ?_, ?_⟩
        · rw [(last_eq_dot h).2 rfl]; decide
        · rw [h.len]; simp
      · obtain ⟨-, h2, h3⟩ := (labelOk_iff h).1 hl
        exact ⟨st, rfl, h2, h3⟩
  | c :: cs, st, cur, h => by
    simp only [domLoop, domStep]
    by_cases hl : isLetterByte c = true
    · have hb : LabelByte c := (labelByte_iff c).2 (Or.inl hl)
      have hd : c = 45 → cur ≠ [] := by rintro rfl; exact absurd hl (by decide)
      simp only [hl, if_true]
      rw [domLoop_iff cs _ _ (h.cons hb hd true), consSeg_segs_cons (labelByte_ne_dot hb)]
    · simp only [hl, if_false, Bool.false_eq_true]
      by_cases hdg : isDigitByte c = true
      · have hb : LabelByte c := (labelByte_iff c).2 (Or.inr (Or.inl hdg))
        have hd : c = 45 → cur ≠ [] := by rintro rfl; exact absurd hdg (by decide)
        simp only [hdg, if_true]
        rw [domLoop_iff cs _ _ (h.cons hb hd st.ok), consSeg_segs_cons (labelByte_ne_dot hb)]
      · simp only [hdg, if_false, Bool.false_eq_true]
        by_cases hdash : c = 45
        · subst hdash
          simp only [beq_self_eq_true, if_true]
          have hb : LabelByte 45 := (labelByte_iff 45).2 (Or.inr (Or.inr rfl))
          by_cases hcur : cur = []
          · subst hcur
            have : (st.last == 46) = true := by simpa using (last_eq_dot h).2 rfl
            simp only [this, if_true, domFinal]
            constructor
            · rintro ⟨_, h', _⟩; cases h'
            · intro hk; exact absurd hk segsOk_dash
          · have : (st.last == 46) = false := by
              simpa using fun h' => hcur ((last_eq_dot h).1 h')
            simp only [this, if_false, Bool.false_eq_true]
            rw [domLoop_iff cs _ _ (h.cons hb (fun _ => hcur) st.ok), consSeg_segs_cons (by decide)]
        · have hd' : (c == 45) = false := by simpa using hdash
          simp only [hd', if_false, Bool.false_eq_true]
          by_cases hdot : c = 46
          · subst hdot
            simp only [beq_self_eq_true, if_true]
            have hsegs : consSeg cur (segs (46 :: cs)) = cur :: segs cs := by simp [segs, consSeg]
            rw [hsegs, segsOk_cons (segs_ne cs), labelOk_iff h]
            by_cases h1 : st.last = 46
            · simp [h1, domFinal]
            · by_cases h2 : st.last = 45
              · simp [h2, domFinal]
              · by_cases h3 : st.partlen > 63
                · simp [h1, h2, h3, domFinal]
                · have h4 : st.partlen ≠ 0 := by
                    rw [h.len]; intro h0
                    exact h1 ((last_eq_dot h).2 (List.length_eq_zero_iff.1 h0))
                  have h3' : st.partlen ≤ 63 := by omega
                  have hinv : DomInv ⟨46, st.ok, 0⟩ [] := ⟨⟨by simp, by simp⟩, rfl, rfl⟩
                  have := domLoop_iff cs _ _ hinv
                  have hcs : consSeg [] (segs cs) = segs cs := by
                    cases hs : segs cs with
                    | nil => exact absurd hs (segs_ne cs)
                    | cons => simp [consSeg]
                  rw [hcs] at this
                  simp only [h1, h2, h3, h4, beq_iff_eq, Bool.or_eq_true, or_self, if_false,
                    decide_false, Bool.false_eq_true, this]
                  simp [h1, h2, h3']
          · have hd'' : (c == 46) = false := by simpa using hdot
            have hnb : ¬ LabelByte c := by
              rw [labelByte_iff]; simp [hl, hdg, hdash]
            simp only [hd'', if_false, Bool.false_eq_true, domFinal]
            constructor
            · rintro ⟨_, h', _⟩; cases h'
            · intro hk; exact absurd hk (segsOk_bad hnb hdot)

theorem domLoop_ok : ∀ (cs : GoStr) (st st' : DomSt), domLoop cs st = some st' →
    (st'.ok = true ↔ st.ok = true ∨ ∃ c ∈ cs, LetterByte c)
  | [], st, st', h => by simp [domLoop] at h; subst h; simp
  | c :: cs, st, st', h => by
    simp only [domLoop] at h
    split at h
    · cases h
    · rename_i st1 h1
      rw [domLoop_ok cs st1 st' h]
      have : st1.ok = true ↔ st.ok = true ∨ LetterByte c := by
        unfold domStep at h1
        by_cases hl : isLetterByte c = true
        · simp only [hl, if_true, Option.some.injEq] at h1
          subst h1
          simp [(isLetterByte_iff c).1 hl]
        · have hl' : ¬ LetterByte c := fun h' => hl ((isLetterByte_iff c).2 h')
          simp only [hl, if_false, Bool.false_eq_true] at h1
          have : st1.ok = st.ok := by
            split at h1
            · cases h1; rfl
            · split at h1
              · split at h1
                · cases h1
                · cases h1; rfl
              · split at h1
                · split at h1
                  · cases h1
                  · split at h1
                    · cases h1
                    · cases h1; rfl
                · cases h1
          simp [this, hl']
      simp [this, or_assoc]

/-! ## Segments and joined labels -/

theorem joinDots_segs : ∀ s : GoStr, joinDots (segs s) = s
  | [] => rfl
  | c :: cs => by
    have ih := joinDots_segs cs
    simp only [segs]
    by_cases h : c = 46
    · subst h
      simp only [if_true]
      cases hs : segs cs with
      | nil => exact absurd hs (segs_ne cs)
      | cons a l => rw [hs] at ih; simp [joinDots, ih]
    · simp only [if_neg h]
      cases hs : segs cs with
      | nil => exact absurd hs (segs_ne cs)
      | cons a l =>
        rw [hs] at ih
        simp only
        cases l with
        | nil => simp [joinDots] at ih ⊢; exact ih
        | cons b l => simp only [joinDots, List.cons_append] at ih ⊢; rw [ih]

theorem segs_append_dot : ∀ (l : GoStr), (∀ c ∈ l, c ≠ 46) → ∀ t, segs (l ++ 46 :: t) = l :: segs t
  | [], _, t => by simp [segs]
  | c :: l, h, t => by
    have hc : c ≠ 46 := h c (by simp)
    simp only [List.cons_append, segs, if_neg hc]
    rw [segs_append_dot l (fun x hx => h x (by simp [hx])) t]

theorem segs_noDot : ∀ (l : GoStr), (∀ c ∈ l, c ≠ 46) → segs l = [l]
  | [], _ => rfl
  | c :: l, h => by
    have hc : c ≠ 46 := h c (by simp)
    simp only [segs, if_neg hc]
    rw [segs_noDot l (fun x hx => h x (by simp [hx]))]

theorem segs_joinDots : ∀ (ls : List GoStr), ls ≠ [] → (∀ l ∈ ls, ∀ c ∈ l, c ≠ 46) → segs (joinDots ls) = ls
  | [], h, _ => absurd rfl h
  | [l], _, h => by simp only [joinDots]; exact segs_noDot l (h l (by simp))
  | l :: m :: ls, _, h => by
    simp only [joinDots]
    rw [segs_append_dot l (h l (by simp)), segs_joinDots (m :: ls) (by simp) (fun x hx => h x (by simp [hx]))]

theorem segs_joinDots_dot : ∀ (ls : List GoStr), ls ≠ [] → (∀ l ∈ ls, ∀ c ∈ l, c ≠ 46) →
    segs (joinDots ls ++ [46]) = ls ++ [[]]
  | [], h, _ => absurd rfl h
  | [l], _, h => by
    simp only [joinDots]; rw [segs_append_dot l (h l (by simp))]; rfl
  | l :: m :: ls, _, h => by
    simp only [joinDots, List.append_assoc, List.cons_append]
    rw [segs_append_dot l (h l (by simp)), segs_joinDots_dot (m :: ls) (by simp) (fun x hx => h x (by simp [hx]))]
    rfl

theorem segsOk_iff : ∀ (ls : List GoStr), ls ≠ [] →
    (segsOk ls ↔ (∀ l ∈ ls, LabelOk l) ∨ ∃ ms, ls = ms ++ [[]] ∧ ∀ l ∈ ms, LabelOk l)
  | [], h => absurd rfl h
  | [l], _ => by
    simp only [segsOk, List.mem_singleton, forall_eq]
    constructor
    · rintro (rfl | h)
      · exact Or.inr ⟨[], by simp, by simp⟩
      · exact Or.inl h
    · rintro (h | ⟨ms, h, -⟩)
      · exact Or.inr h
      · cases ms with
        | nil => simp at h; exact Or.inl h
        | cons a ms => simp at h
  | l :: m :: ls, _ => by
    rw [segsOk_cons (by simp), segsOk_iff (m :: ls) (by simp)]
    constructor
    · rintro ⟨h1, h2 | ⟨ms, h2, h3⟩⟩
      · exact Or.inl (by simpa using ⟨h1, by simpa using h2⟩)
      · refine Or.inr ⟨l :: ms, by simp [h2], ?_⟩
        intro x hx
        rcases List.mem_cons.1 hx with rfl | hx
        · exact h1
        · exact h3 x hx
    · rintro (h | ⟨ms, h1, h2⟩)
      · exact ⟨h l (by simp), Or.inl fun x hx => h x (by simp [List.mem_cons.1 hx])⟩
      · cases ms with
        | nil => simp at h1
        | cons a ms =>
          simp only [List.cons_append, List.cons.injEq] at h1
          obtain ⟨rfl, h1⟩ := h1
          exact ⟨h2 _ (by simp), Or.inr ⟨ms, h1, fun x hx => h2 x (by simp [hx])⟩⟩

theorem isDomainName_iff (s : GoStr) : isDomainName s = true ↔ HostOk s := by
  unfold isDomainName HostOk
  by_cases h0 : s = []
  · subst h0; simp
  have hlen0 : (s.length == 0) = false := by simpa using h0
  simp only [hlen0, if_false, Bool.false_eq_true]
  by_cases h255 : s.length > 255
  · simp only [h255, if_true, Bool.false_eq_true, false_iff]
    rintro ⟨h, -⟩; omega
  simp only [h255, if_false]
  have hle : s.length ≤ 255 := by omega
  have hinv : DomInv ⟨46, false, 0⟩ [] := ⟨⟨by simp, by simp⟩, rfl, rfl⟩
  have hrec := domLoop_iff s _ _ hinv
  have hcs : consSeg [] (segs s) = segs s := by
    cases hs : segs s with
    | nil => exact absurd hs (segs_ne s)
    | cons => simp [consSeg]
  rw [hcs, segsOk_iff _ (segs_ne s)] at hrec
  have hlab : ((∀ l ∈ segs s, LabelOk l) ∨ ∃ ms, segs s = ms ++ [[]] ∧ ∀ l ∈ ms, LabelOk l) ↔
      ∃ labels : List GoStr, labels ≠ [] ∧ (∀ l ∈ labels, LabelOk l) ∧
        (s = joinDots labels ∨ s = joinDots labels ++ [46]) := by
    constructor
    · rintro (h | ⟨ms, h1, h2⟩)
      · exact ⟨segs s, segs_ne s, h, Or.inl (joinDots_segs s).symm⟩
      · have hms : ms ≠ [] := by
          rintro rfl
          apply h0
          have := joinDots_segs s
          rw [h1] at this
          simpa [joinDots] using this.symm
        refine ⟨ms, hms, h2, Or.inr ?_⟩
        have hd : ∀ l ∈ ms, ∀ c ∈ l, c ≠ 46 := fun l hl c hc => labelByte_ne_dot ((h2 l hl).bytes c hc)
        have e1 := segs_joinDots_dot ms hms hd
        rw [← joinDots_segs s, h1, ← e1, joinDots_segs]
    · rintro ⟨ls, hne, hok, rfl | rfl⟩
      · rw [segs_joinDots ls hne fun l hl c hc => labelByte_ne_dot ((hok l hl).bytes c hc)]
        exact Or.inl hok
      · rw [segs_joinDots_dot ls hne fun l hl c hc => labelByte_ne_dot ((hok l hl).bytes c hc)]
        exact Or.inr ⟨ls, rfl, hok⟩
  rw [hlab] at hrec
  rw [← hrec]
  cases hd : domLoop s ⟨46, false, 0⟩ with
  | none => simp [domFinal]
  | some st =>
    have hok := domLoop_ok s _ st hd
    simp only [domFinal, Option.some.injEq]
    simp only [Bool.false_eq_true, false_or] at hok
    rw [← hok]
    by_cases h1 : st.last = 45
    · simp [h1]
    · by_cases h2 : st.partlen > 63
      · simp [h1, h2, hle]
      · simp [h1, h2, hle, Nat.le_of_not_lt h2]

end Jsval
