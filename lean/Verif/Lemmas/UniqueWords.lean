import Verif.Lemmas.Unique
/-!
# Printing tells documents with words apart
-/
namespace Jsval

variable {ext : Ext} {L : FmtLib}

theorem Wordy.isJson {v : GoVal} (h : Wordy v) : IsJson v := by
  induction h with
  | null => exact .null
  | bool b => exact .bool b
  | num n m _ => exact .num _
  | str s _ => exact .str s
  | arr xs _ ih => exact .arr xs ih
  | obj kvs hn _ _ ih => exact .obj kvs hn ih

theorem NoNegZero.isJson {v : GoVal} (h : NoNegZero v) : IsJson v := by
  induction h with
  | null => exact .null
  | bool b => exact .bool b
  | num n m _ => exact .num _
  | str s => exact .str s
  | arr xs _ ih => exact .arr xs ih
  | obj kvs hn _ ih => exact .obj kvs hn ih

theorem Wordy.noNegZero {v : GoVal} (h : Wordy v) : NoNegZero v := by
  induction h with
  | null => exact .null
  | bool b => exact .bool b
  | num n m h => exact .num n m h
  | str s _ => exact .str s
  | arr xs _ ih => exact .arr xs ih
  | obj kvs hn _ _ ih => exact .obj kvs hn ih

theorem fmtS_of_ne {v : GoVal} (h : v ≠ .nil) : fmtS L v = fmtIn L v := by
  cases v <;> first | rfl | exact absurd rfl h

theorem fmtS_eq_of {v w : GoVal} (hn : v = .nil ↔ w = .nil) (h : fmtIn L v = fmtIn L w) : fmtS L v = fmtS L w := by
  by_cases hv : v = .nil
  · rw [hv, hn.1 hv]
  · rw [fmtS_of_ne hv, fmtS_of_ne (fun e => hv (hn.2 e)), h]

/-- The text of nil alone belongs to nothing else. -/
theorem fmtS_nil_ne (hL : L.Good) {w : GoVal} (hw : Wordy w) (hne : w ≠ .nil) : fmtS L .nil ≠ fmtIn L w := by
  intro h
  rcases wordy_cases hw with ha | ⟨xs, rfl⟩ | ⟨kvs, rfl⟩
  · have hL' : FmtLib.Good ⟨L.num, b! "%!s(<nil>)"⟩ := ⟨hL.inj, hL.solid, .inr rfl⟩
    have e : fmtIn ⟨L.num, b! "%!s(<nil>)"⟩ w = fmtIn L w := by
      cases hw with
      | null => exact absurd rfl hne
      | bool b => rw [fmtIn_bool, fmtIn_bool]
      | num n m _ => simp only [fmtIn]
      | str s _ => simp only [fmtIn]
      | arr xs _ => exact absurd rfl (ha.1 _ _)
      | obj kvs _ _ _ => exact absurd rfl (ha.2 _ _)
    have := atomic_inj hL' .null hw ⟨fun _ _ h => (by cases h), fun _ _ h => (by cases h)⟩ ha (by rw [e, ← h]; simp only [fmtIn, fmtS])
    exact hne this.symm
  · simp [fmtS, fmtIn] at h
  · simp [fmtS, fmtIn] at h

theorem fmtS_inj (hL : L.Good) {v w : GoVal} (hv : Wordy v) (hw : Wordy w) (h : fmtS L v = fmtS L w) : JsonEq v w := by
  by_cases h1 : v = .nil <;> by_cases h2 : w = .nil
  · subst h1 h2; exact .null
  · subst h1; rw [fmtS_of_ne h2] at h; exact absurd h (fmtS_nil_ne hL hw h2)
  · subst h2; rw [fmtS_of_ne h1] at h; exact absurd h.symm (fmtS_nil_ne hL hv h1)
  · rw [fmtS_of_ne h1, fmtS_of_ne h2] at h
    exact ((doc_read hL hv w hw).back [] [] (fun c hc => by cases hc) (fun c hc => by cases hc) (by rw [h])).1

/-- Two documents with words are printed alike exactly if they are equal. -/
theorem print_iff (hP : PrintsJson ext L) (hL : L.Good) {x y : GoVal} (hx : Wordy x) (hy : Wordy y) : ext.sprint x = ext.sprint y ↔ JsonEq x y := by
  rw [hP x hx.isJson, hP y hy.isJson]
  refine ⟨fun h => fmtS_inj hL hx hy h, fun h => fmtS_eq_of ?_ (fmtIn_jsonEq h hx.noNegZero hy.noNegZero)⟩
  cases h <;> simp

end Jsval
