import Verif.Lemmas.UniqueWords
import Verif.Lemmas.GenRun
import Verif.Props.Exact

/-!
C125: what `UniqueItems` means for decoded JSON. The code compares what `fmt.Sprintf("%s", iv)` prints (array.go:59-68, see
C28). With fmt's rules written out, equal documents are always found, and different ones are told apart if their strings
are words.
-/

namespace Jsval

variable {ext : Ext} {L : FmtLib} {ρ : RefSem}

/-- C125: documents that differ only in the order of properties are printed alike, as C35 and C42 assume of fmt. -/
theorem C125_sorted (hP : PrintsJson ext L) : PrintsSorted ext := by
  intro v w hv hw h
  rw [hP v hv, hP w hw]
  refine fmtS_eq_of ?_ (fmtIn_alike h hv hw)
  cases h <;> simp

/-- C125: equal elements are found, whatever is in them (but see `C125_zeros`). -/
theorem C125_repeated (hP : PrintsJson ext L) {a : ArrC Constraint} {σ : Sched} {n : Bool} {xs : List GoVal} (hx : ∀ x ∈ xs, NoNegZero x)
    {i j : Nat} {x y : GoVal} (hij : i < j) (hi : xs[i]? = some x) (hj : xs[j]? = some y) (h : JsonEq x y) :
    ¬ (denote ext ρ (.array (a.UniqueItems true))).AcceptsBy σ (.slice n xs) := by
  rw [arrayV_within]
  rintro ⟨_, hu, _⟩
  have hx1 := hx x (List.mem_of_getElem? hi)
  have hy1 := hx y (List.mem_of_getElem? hj)
  refine hu rfl ⟨i, j, x, y, hij, hi, hj, ?_⟩
  rw [hP x hx1.isJson, hP y hy1.isJson]
  refine fmtS_eq_of ?_ (fmtIn_jsonEq h hx1 hy1)
  cases h <;> simp

/-- C125: in documents whose strings and property names are words, no two elements are taken for the same unless they are
equal as JSON documents. -/
theorem C125_words (hP : PrintsJson ext L) (hL : L.Good) {σ : Sched} {n : Bool} {xs : List GoVal} (hx : ∀ x ∈ xs, Wordy x) :
    (denote ext ρ (.array (Array'.UniqueItems true))).AcceptsBy σ (.slice n xs) ↔ xs.Pairwise (fun x y => ¬ JsonEq x y) := by
  rw [C28_exact, List.Nodup, List.pairwise_map]
  refine List.Pairwise.iff_of_mem fun {x y} hx' hy' => ?_
  exact not_congr (print_iff hP hL (hx x hx') (hx y hy'))

/-- C125, for any array constraint: asking for unique items adds exactly that. -/
theorem C125_adds (hP : PrintsJson ext L) (hL : L.Good) (a : ArrC Constraint) {σ : Sched} {n : Bool} {xs : List GoVal} (hx : ∀ x ∈ xs, Wordy x) :
    (denote ext ρ (.array (a.UniqueItems true))).AcceptsBy σ (.slice n xs) ↔
      (denote ext ρ (.array (a.UniqueItems false))).AcceptsBy σ (.slice n xs) ∧ xs.Pairwise (fun x y => ¬ JsonEq x y) := by
  rw [← C125_words (ρ := ρ) (σ := σ) (n := n) hP hL hx, C28_exact, arrayV_within, arrayV_within]
  have hu := not_nodup_map_iff ext.sprint xs
  constructor
  · rintro ⟨h1, h2, h3⟩
    exact ⟨⟨h1, fun h => (by cases h), h3⟩, by by_contra h; exact h2 rfl (hu.1 h)⟩
  · rintro ⟨⟨h1, _, h3⟩, h2⟩
    exact ⟨h1, fun _ h => hu.2 h h2, h3⟩

/-! ### Where it fails -/

/-- C125: without words it fails: pairs of different documents that are taken for the same. A blank in a string, an empty
string, the text of an object, of null and of a boolean, a colon in a property name and in a string. -/
theorem C125_confused (hP : PrintsJson ext L) {σ : Sched} {n : Bool} {x y : GoVal}
    (h : (x, y) ∈ ([(.slice false [.str (b! "a b")], .slice false [.str (b! "a"), .str (b! "b")]),
      (.slice false [.str []], .slice false []),
      (.map false [(b! "a", .str (b! "b"))], .str (b! "map[a:b]")),
      (.nil, .str (b! "%!s(<nil>)")),
      (.bool true, .str (b! "%!s(bool=true)")),
      (.map false [(b! "a:b", .str (b! "c"))], .map false [(b! "a", .str (b! "b:c"))])] : List (GoVal × GoVal))) :
    ¬ JsonEq x y ∧ ¬ (denote ext ρ (.array (Array'.UniqueItems true))).AcceptsBy σ (.slice n [x, y]) := by
  have key : ∀ {x y : GoVal}, IsJson x → IsJson y → fmtS L x = fmtS L y →
      ¬ (denote ext ρ (.array (Array'.UniqueItems true))).AcceptsBy σ (.slice n [x, y]) := by
    intro x y hx hy h
    rw [C28_exact]
    simp [hP x hx, hP y hy, h]
  have one : ∀ (k : GoStr) (x : GoVal), IsJson x → IsJson (.map false [(k, x)]) := fun k x hx =>
    .obj _ (List.nodup_singleton _) (fun k' x' h => by simp only [List.mem_singleton, Prod.mk.injEq] at h; rw [h.2]; exact hx)
  have strs : ∀ l : List GoStr, IsJson (.slice false (l.map .str)) := fun l => .arr _ (fun x hx => by
    obtain ⟨s, _, rfl⟩ := List.mem_map.1 hx; exact .str s)
  simp only [List.mem_cons, Prod.mk.injEq, List.not_mem_nil, or_false] at h
  rcases h with ⟨rfl, rfl⟩ | ⟨rfl, rfl⟩ | ⟨rfl, rfl⟩ | ⟨rfl, rfl⟩ | ⟨rfl, rfl⟩ | ⟨rfl, rfl⟩
  · refine ⟨fun h => ?_, key (strs [_]) (strs [_, _]) rfl⟩
    cases h with
    | arr _ _ hl _ => cases hl
  · refine ⟨fun h => ?_, key (strs [_]) (strs []) rfl⟩
    cases h with
    | arr _ _ hl _ => cases hl
  · exact ⟨fun h => (by cases h), key (one _ _ (.str _)) (.str _) rfl⟩
  · exact ⟨fun h => (by cases h), key .null (.str _) rfl⟩
  · exact ⟨fun h => (by cases h), key (.bool _) (.str _) rfl⟩
  · refine ⟨fun h => ?_, key (one _ _ (.str _)) (one _ _ (.str _)) rfl⟩
    cases h with
    | obj _ _ hk _ =>
      obtain ⟨z, hz⟩ := (hk (b! "a:b")).1 ⟨_, List.mem_singleton.2 rfl⟩
      simp at hz

/-- C125: 0 and -0 are equal numbers and taken for different ones. -/
theorem C125_zeros (hP : PrintsJson ext L) (hL : L.Good) {σ : Sched} {n : Bool} :
    JsonEq (.float .f64 (.fin false 0)) (.float .f64 (.fin true 0)) ∧
    (denote ext ρ (.array (Array'.UniqueItems true))).AcceptsBy σ (.slice n [.float .f64 (.fin false 0), .float .f64 (.fin true 0)]) := by
  refine ⟨.num _ _ ⟨_, rfl, rfl⟩, ?_⟩
  rw [C28_exact]
  have hne : fmtS L (.float .f64 (.fin false 0)) ≠ fmtS L (.float .f64 (.fin true 0)) := by
    intro h
    simp only [fmtS, fmtIn] at h
    have := hL.inj _ _ _ _ (List.append_cancel_left (List.append_cancel_right h))
    cases this
  simp [hP _ (.num _), hne]

/-! ### It applies -/

/-- A printer of numbers that writes the number of units of 2^-1074. -/
def exFmt : FmtLib where
  num := fun
    | .nan => b! "NaN"
    | .inf n => if n then b! "-Inf" else b! "+Inf"
    | .fin n m => if n then 45 :: natDec m else natDec m
  nilIn := b! "<nil>"

theorem isDigit_solid {c : UInt8} (h : isDigit c = true) : c ∉ separators ∧ c ≠ 45 := by
  constructor
  · intro hc
    simp only [separators, List.mem_cons, List.not_mem_nil, or_false] at hc
    rcases hc with rfl | rfl | rfl | rfl <;> revert h <;> decide
  · rintro rfl
    revert h
    decide

theorem natDec_ne_minus (m : Nat) (s : GoStr) : natDec m ≠ 45 :: s := fun h =>
  (isDigit_solid (natDec_digits m 45 (by rw [h]; simp))).2 rfl

theorem exFmt_good : exFmt.Good where
  inj := by
    intro n m n' m' h
    cases n <;> cases n' <;> simp only [exFmt, if_true, Bool.false_eq_true, if_false] at h
    · rw [natDec_inj h]
    · exact absurd h (natDec_ne_minus _ _)
    · exact absurd h.symm (natDec_ne_minus _ _)
    · rw [natDec_inj (List.cons.inj h).2]
  solid := by
    intro n m c hc
    cases n <;> simp only [exFmt, if_true, Bool.false_eq_true, if_false, List.mem_cons] at hc
    · exact (isDigit_solid (natDec_digits m c hc)).1
    · rcases hc with rfl | hc
      · decide
      · exact (isDigit_solid (natDec_digits m c hc)).1
  nilIn := .inl rfl

/-- A standard library that prints so. -/
def exPrints : Ext := { demoExt with sprint := fmtS exFmt }

theorem exPrints_json : PrintsJson exPrints exFmt := fun _ _ => rfl

/-- Objects of words: the second and the third element differ in the order of properties only. -/
def exItems : List GoVal :=
  [.map false [(b! "id", .str (b! "x"))],
   .map false [(b! "id", .str (b! "y")), (b! "tags", .slice false [.str (b! "red"), .nil])],
   .map false [(b! "tags", .slice false [.str (b! "red"), .nil]), (b! "id", .str (b! "y"))]]

theorem exItems_wordy : ∀ x ∈ exItems, Wordy x := by
  have hw : ∀ s ∈ ([b! "id", b! "x", b! "y", b! "tags", b! "red"] : List GoStr), Word s := by
    unfold Word; decide
  have tags : Wordy (.slice false [.str (b! "red"), .nil]) := .arr _ (by
    simp only [List.mem_cons, List.not_mem_nil, or_false, forall_eq_or_imp, forall_eq]
    exact ⟨.str _ (hw _ (by decide)), .null⟩)
  have two : ∀ {k l : GoStr} {x y : GoVal}, k ≠ l → Word k → Word l → Wordy x → Wordy y → Wordy (.map false [(k, x), (l, y)]) := by
    intro k l x y hkl hk hl hx hy
    refine .obj _ (by simpa using hkl) (fun k' x' h => ?_) (fun k' x' h => ?_) <;>
      simp only [List.mem_cons, Prod.mk.injEq, List.not_mem_nil, or_false] at h <;> rcases h with ⟨rfl, rfl⟩ | ⟨rfl, rfl⟩ <;> assumption
  intro x hx
  simp only [exItems, List.mem_cons, List.not_mem_nil, or_false] at hx
  rcases hx with rfl | rfl | rfl
  · refine .obj _ (List.nodup_singleton _) (fun k' x' h => ?_) (fun k' x' h => ?_) <;>
      simp only [List.mem_singleton, Prod.mk.injEq] at h <;> obtain ⟨rfl, rfl⟩ := h
    · exact hw _ (by decide)
    · exact .str _ (hw _ (by decide))
  · exact two (by decide) (hw _ (by decide)) (hw _ (by decide)) (.str _ (hw _ (by decide))) tags
  · exact two (by decide) (hw _ (by decide)) (hw _ (by decide)) tags (.str _ (hw _ (by decide)))

/-- The first two are different and pass; all three do not. -/
example : ((denote exPrints ρ (.array (Array'.UniqueItems true))).val sched0 (.slice false (exItems.take 2))).1 = .ok := rfl
example : ((denote exPrints ρ (.array (Array'.UniqueItems true))).val sched0 (.slice false exItems)).1 = .err .dupItem := rfl

/-- So the first two are different as JSON documents, by `C125_words`. -/
example : (exItems.take 2).Pairwise (fun x y => ¬ JsonEq x y) :=
  (C125_words (ρ := fun _ => unresolved) (σ := sched0) (n := false) exPrints_json exFmt_good
    (fun x hx => exItems_wordy x (List.mem_of_mem_take hx))).1 rfl

end Jsval
