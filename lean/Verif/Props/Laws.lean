import Verif.Props.Replace
import Verif.Props.Objects
/-!
# C117: laws of combinations

Nested combinations of one kind can be made flat, and `Not` moved to the branches, at any place of any validator (with C116). Branches can
be put in another order where they only look.
-/
namespace Jsval

variable {ext : Ext}

theorem equivalent_of_alike {s t : Sem} (hd : s.dflt = t.dflt) (h1 : ∀ σ v, ∃ σ', AlikeOut (t.val σ' v) (s.val σ v))
    (h2 : ∀ σ v, ∃ σ', AlikeOut (s.val σ' v) (t.val σ v)) : s.Equivalent t :=
  equivalent_iff.2 ⟨⟨hd, fun σ v => (h1 σ v).imp fun _ h => bare_of_sim h⟩, ⟨hd.symm, fun σ v => (h2 σ v).imp fun _ h => bare_of_sim h⟩⟩

theorem AlikeOut.of_eq {S : Type} {r r' : Res × S} (h : r = r') : AlikeOut r r' := h ▸ .refl _

/-! ## Flat combinations -/

theorem allLoop_shift {σ τ : Sched} : ∀ (l : List Sem) (i j : Nat) (v : GoVal), (∀ k, k < l.length → σ.sub (i + k) = τ.sub (j + k)) →
    allLoop i l σ v = allLoop j l τ v
  | [], _, _, _, _ => rfl
  | c :: l, i, j, v, h => by
    have h0 : σ.sub i = τ.sub j := h 0 (by simp)
    simp only [allLoop, h0]
    rcases c.val (τ.sub j) v with ⟨r, v'⟩
    cases r with
    | ok => exact allLoop_shift l (i + 1) (j + 1) v' (fun k hk => by
        have := h (k + 1) (by simp only [List.length_cons]; omega)
        rwa [show i + (k + 1) = i + 1 + k by omega, show j + (k + 1) = j + 1 + k by omega] at this)
    | _ => rfl

theorem anyLoop_shift {σ τ : Sched} : ∀ (l : List Sem) (i j : Nat) (v : GoVal), (∀ k, k < l.length → σ.sub (i + k) = τ.sub (j + k)) →
    anyLoop i l σ v = anyLoop j l τ v
  | [], _, _, _, _ => rfl
  | c :: l, i, j, v, h => by
    have h0 : σ.sub i = τ.sub j := h 0 (by simp)
    simp only [anyLoop, h0]
    rcases c.val (τ.sub j) v with ⟨r, v'⟩
    cases r with
    | err e => exact anyLoop_shift l (i + 1) (j + 1) v' (fun k hk => by
        have := h (k + 1) (by simp only [List.length_cons]; omega)
        rwa [show i + (k + 1) = i + 1 + k by omega, show j + (k + 1) = j + 1 + k by omega] at this)
    | _ => rfl

theorem allLoop_append {σ : Sched} (l2 : List Sem) : ∀ (l1 : List Sem) (i : Nat) (v : GoVal), allLoop i (l1 ++ l2) σ v =
    match allLoop i l1 σ v with
    | (.ok, v') => allLoop (i + l1.length) l2 σ v'
    | r => r
  | [], _, _ => rfl
  | c :: l1, i, v => by
    simp only [List.cons_append, allLoop]
    rcases c.val (σ.sub i) v with ⟨r, v'⟩
    cases r with
    | ok =>
      simp only [allLoop_append l2 l1 (i + 1) v', List.length_cons, show i + 1 + l1.length = i + (l1.length + 1) by omega]
    | _ => rfl

theorem anyLoop_append {σ : Sched} (l2 : List Sem) : ∀ (l1 : List Sem) (i : Nat) (v : GoVal), anyLoop i (l1 ++ l2) σ v =
    match anyLoop i l1 σ v with
    | (.err _, v') => anyLoop (i + l1.length) l2 σ v'
    | r => r
  | [], _, _ => rfl
  | c :: l1, i, v => by
    simp only [List.cons_append, anyLoop]
    rcases c.val (σ.sub i) v with ⟨r, v'⟩
    cases r with
    | err e =>
      simp only [anyLoop_append l2 l1 (i + 1) v', List.length_cons, show i + 1 + l1.length = i + (l1.length + 1) by omega]
    | _ => rfl

/-- The schedules of a nested combination, for the flat one. -/
def Sched.flat (σ : Sched) (n m : Nat) : Sched := Sched.of 0 fun i =>
  if i < n then σ.sub i else if i < n + m then (σ.sub n).sub (i - n) else σ.sub (i - m + 1)

/-- … and back. -/
def Sched.nest (σ : Sched) (n m : Nat) : Sched := Sched.of 0 fun i =>
  if i < n then σ.sub i else if i = n then Sched.of 0 (fun j => σ.sub (n + j)) else σ.sub (i + m - 1)

/-- The schedules fit: what the branches of the nested combination get is what they get in the flat one. -/
structure Fits (σ τ : Sched) (n m : Nat) : Prop where
  before : ∀ i, i < n → σ.sub i = τ.sub i
  inner : ∀ j, j < m → (σ.sub n).sub j = τ.sub (n + j)
  after : ∀ k, σ.sub (n + 1 + k) = τ.sub (n + m + k)

theorem fits_flat (σ : Sched) (n m : Nat) : Fits σ (σ.flat n m) n m where
  before i hi := by simp only [Sched.flat, Sched.of_sub, if_pos hi]
  inner j hj := by
    simp only [Sched.flat, Sched.of_sub, if_neg (show ¬ n + j < n by omega), if_pos (show n + j < n + m by omega),
      show n + j - n = j by omega]
  after k := by
    simp only [Sched.flat, Sched.of_sub, if_neg (show ¬ n + m + k < n by omega), if_neg (show ¬ n + m + k < n + m by omega),
      show n + m + k - m + 1 = n + 1 + k by omega]

theorem fits_nest (σ : Sched) (n m : Nat) : Fits (σ.nest n m) σ n m where
  before i hi := by simp only [Sched.nest, Sched.of_sub, if_pos hi]
  inner j hj := by simp only [Sched.nest, Sched.of_sub, if_neg (show ¬ n < n by omega), if_true]
  after k := by
    simp only [Sched.nest, Sched.of_sub, if_neg (show ¬ n + 1 + k < n by omega), if_neg (show ¬ n + 1 + k = n by omega),
      show n + 1 + k + m - 1 = n + m + k by omega]

theorem allLoop_flat {σ τ : Sched} (xs ys zs : List Sem) (d : Dflt) (h : Fits σ τ xs.length ys.length) (v : GoVal) :
    allLoop 0 (xs ++ ⟨d, allLoop 0 ys⟩ :: zs) σ v = allLoop 0 (xs ++ (ys ++ zs)) τ v := by
  rw [allLoop_append, allLoop_append, allLoop_shift (σ := σ) (τ := τ) xs 0 0 v (fun k hk => by rw [Nat.zero_add]; exact h.before k hk)]
  rcases allLoop 0 xs τ v with ⟨r, w⟩
  cases r with
  | ok =>
    simp only [allLoop, Nat.zero_add, allLoop_append]
    rw [allLoop_shift (σ := σ.sub xs.length) (τ := τ) ys 0 xs.length w (fun k hk => by rw [Nat.zero_add]; exact h.inner k hk)]
    rcases allLoop xs.length ys τ w with ⟨r, u⟩
    cases r with
    | ok => exact allLoop_shift zs _ _ u (fun k _ => h.after k)
    | _ => rfl
  | _ => rfl

theorem anyLoop_flat {σ τ : Sched} (xs ys zs : List Sem) (d : Dflt) (h : Fits σ τ xs.length ys.length) (v : GoVal) :
    anyLoop 0 (xs ++ ⟨d, anyLoop 0 ys⟩ :: zs) σ v = anyLoop 0 (xs ++ (ys ++ zs)) τ v := by
  rw [anyLoop_append, anyLoop_append, anyLoop_shift (σ := σ) (τ := τ) xs 0 0 v (fun k hk => by rw [Nat.zero_add]; exact h.before k hk)]
  rcases anyLoop 0 xs τ v with ⟨r, w⟩
  cases r with
  | err e =>
    simp only [anyLoop, Nat.zero_add, anyLoop_append]
    rw [anyLoop_shift (σ := σ.sub xs.length) (τ := τ) ys 0 xs.length w (fun k hk => by rw [Nat.zero_add]; exact h.inner k hk)]
    rcases anyLoop xs.length ys τ w with ⟨r, u⟩
    cases r with
    | err e => exact anyLoop_shift zs _ _ u (fun k _ => h.after k)
    | _ => rfl
  | _ => rfl

/-- C117: `All` among the branches of `All`, and `Any` among those of `Any`, can be replaced by its branches. -/
theorem C117_flat (env : Env) (k : Nat) (xs ys zs : List Constraint) :
    (sem ext env k (.all (xs ++ .all ys :: zs))).Equivalent (sem ext env k (.all (xs ++ (ys ++ zs)))) ∧
    (sem ext env k (.any (xs ++ .any ys :: zs))).Equivalent (sem ext env k (.any (xs ++ (ys ++ zs)))) := by
  simp only [sem, denote, denoteList_eq, List.map_append, List.map_cons]
  have e : ∀ l : List Constraint, (l.map (denote ext (refSem ext env k))).length = l.length := fun l => List.length_map _
  constructor <;> refine equivalent_of_alike rfl (fun σ v => ?_) (fun σ v => ?_)
  · exact ⟨σ.flat xs.length ys.length, .of_eq (allLoop_flat _ _ _ .none (by rw [e, e]; exact fits_flat σ xs.length ys.length) v).symm⟩
  · exact ⟨σ.nest xs.length ys.length, .of_eq (allLoop_flat _ _ _ .none (by rw [e, e]; exact fits_nest σ xs.length ys.length) v)⟩
  · exact ⟨σ.flat xs.length ys.length, .of_eq (anyLoop_flat _ _ _ .none (by rw [e, e]; exact fits_flat σ xs.length ys.length) v).symm⟩
  · exact ⟨σ.nest xs.length ys.length, .of_eq (anyLoop_flat _ _ _ .none (by rw [e, e]; exact fits_nest σ xs.length ys.length) v)⟩

/-! ## Negation -/

/-- `Not` of a behaviour. -/
def Sem.neg (s : Sem) : Sem := ⟨.none, notV (some s)⟩

/-- `Not` of an outcome. -/
def negOut : Res × GoVal → Res × GoVal
  | (.ok, v) => (.err .notFailed, v)
  | (.err _, v) => (.ok, v)
  | r => r

theorem neg_val (s : Sem) (σ : Sched) (v : GoVal) : s.neg.val σ v = negOut (s.val (σ.sub 0) v) := by
  simp only [Sem.neg, notV]
  rcases s.val (σ.sub 0) v with ⟨r, w⟩
  cases r <;> rfl

theorem anyLoop_neg {σ τ : Sched} : ∀ (l : List Sem) (i : Nat) (v : GoVal), (∀ k, (τ.sub k).sub 0 = σ.sub k) →
    AlikeOut (negOut (anyLoop i l σ v)) (allLoop i (l.map Sem.neg) τ v)
  | [], _, _, _ => .ok _
  | c :: l, i, v, h => by
    simp only [anyLoop, List.map_cons, allLoop, neg_val, h]
    rcases c.val (σ.sub i) v with ⟨r, w⟩
    cases r with
    | ok => exact .err _ _ _
    | err e => exact anyLoop_neg l (i + 1) w h
    | abort a => exact .abort _ _ _

theorem allLoop_neg {σ τ : Sched} : ∀ (l : List Sem) (i : Nat) (v : GoVal), (∀ k, (τ.sub k).sub 0 = σ.sub k) →
    AlikeOut (negOut (allLoop i l σ v)) (anyLoop i (l.map Sem.neg) τ v)
  | [], _, _, _ => .err _ _ _
  | c :: l, i, v, h => by
    simp only [anyLoop, List.map_cons, allLoop, neg_val, h]
    rcases c.val (σ.sub i) v with ⟨r, w⟩
    cases r with
    | ok => exact allLoop_neg l (i + 1) w h
    | err e => exact .ok _
    | abort a => exact .abort _ _ _

/-- C117: `Not` of `Any` is `All` of `Not` of the branches, and `Not` of `All` is `Any` of them. -/
theorem C117_not (env : Env) (k : Nat) (cs : List Constraint) :
    (sem ext env k (.not (some (.any cs)))).Equivalent (sem ext env k (.all (cs.map fun c => .not (some c)))) ∧
    (sem ext env k (.not (some (.all cs)))).Equivalent (sem ext env k (.any (cs.map fun c => .not (some c)))) := by
  have e : (cs.map fun c => Constraint.not (some c)).map (denote ext (refSem ext env k)) =
      (cs.map (denote ext (refSem ext env k))).map Sem.neg := by
    rw [List.map_map, List.map_map]
    exact List.map_congr_left fun c _ => by simp only [Function.comp, denote, denoteOpt, Sem.neg]
  simp only [sem, denote, denoteOpt, denoteList_eq, e]
  have n : ∀ (s : Sem) σ v, notV (some s) σ v = negOut (s.val (σ.sub 0) v) := neg_val
  let up : Sched → Sched := fun σ => Sched.of 0 fun j => Sched.of 0 fun _ => (σ.sub 0).sub j
  let down : Sched → Sched := fun σ => Sched.of 0 fun _ => Sched.of 0 fun j => (σ.sub j).sub 0
  constructor <;> refine equivalent_of_alike rfl (fun σ v => ?_) (fun σ v => ?_) <;> simp only [n]
  · exact ⟨up σ, (anyLoop_neg _ 0 v fun _ => rfl).symm⟩
  · exact ⟨down σ, anyLoop_neg _ 0 v fun _ => rfl⟩
  · exact ⟨up σ, (allLoop_neg _ 0 v fun _ => rfl).symm⟩
  · exact ⟨down σ, allLoop_neg _ 0 v fun _ => rfl⟩

/-- C117: two `Not`s around a constraint that has no default can be removed. -/
theorem C117_not_not {env : Env} {k : Nat} {c : Constraint} (hd : (sem ext env k c).dflt = .none) :
    (sem ext env k (.not (some (.not (some c))))).Equivalent (sem ext env k c) :=
  ⟨hd.symm, C04_double_negation _ _ c⟩

/-! ## Order of branches -/

/-- On this value the two give the same possible verdicts, leaving the same behind. -/
def Sem.SameOn (s t : Sem) (v : GoVal) : Prop :=
  ∀ v', (s.MayAccept v v' ↔ t.MayAccept v v') ∧ (s.MayReject v v' ↔ t.MayReject v v') ∧ ∀ a, s.MayAbort v a ↔ t.MayAbort v a

/-- A call that returns and leaves the value as it is. -/
theorem looks {s : Sem} {v : GoVal} (h : s.ReadOnlyOn v ∧ s.NormalOn v) (σ : Sched) : s.val σ v = (.ok, v) ∨ ∃ e, s.val σ v = (.err e, v) := by
  have h1 := h.1 σ
  have h2 := h.2 σ
  rcases e : s.val σ v with ⟨r, w⟩
  rw [e] at h1 h2
  simp only at h1
  subst h1
  cases r with
  | ok => exact .inl rfl
  | err x => exact .inr ⟨x, rfl⟩
  | abort a => exact absurd rfl (h2 a)

/-- The schedule with two sub-calls exchanged. -/
def Sched.swap (σ : Sched) (i : Nat) : Sched := (σ.set i (σ.sub (i + 1))).set (i + 1) (σ.sub i)

theorem Sched.swap_left (σ : Sched) (i : Nat) : (σ.swap i).sub i = σ.sub (i + 1) := by
  rw [Sched.swap, Sched.set_ne _ _ (by omega), Sched.set_eq]

theorem Sched.swap_right (σ : Sched) (i : Nat) : (σ.swap i).sub (i + 1) = σ.sub i := by rw [Sched.swap, Sched.set_eq]

theorem Sched.swap_later (σ : Sched) (i : Nat) {j : Nat} (h : i + 1 < j) : (σ.swap i).sub j = σ.sub j := by
  rw [Sched.swap, Sched.set_ne _ _ (by omega), Sched.set_ne _ _ (by omega)]

theorem anyLoop_perm {v : GoVal} {l l' : List Sem} (hp : l.Perm l') : (∀ c ∈ l, c.ReadOnlyOn v ∧ c.NormalOn v) → ∀ (i : Nat) (σ : Sched),
    ∃ σ', AlikeOut (anyLoop i l' σ' v) (anyLoop i l σ v) := by
  induction hp with
  | nil => exact fun _ i σ => ⟨σ, .refl _⟩
  | @cons c l l' _ ih =>
    intro h i σ
    obtain ⟨τ, hτ⟩ := ih (fun d hd => h d (by simp [hd])) (i + 1) σ
    refine ⟨τ.set i (σ.sub i), ?_⟩
    simp only [anyLoop, Sched.set_eq]
    rcases looks (h c (by simp)) (σ.sub i) with e | ⟨x, e⟩ <;> rw [e]
    · exact .refl _
    · simp only
      rw [anyLoop_subs _ _ _ (fun j hj => Sched.set_ne τ (σ.sub i) (by omega))]
      exact hτ
  | swap c d l =>
    intro h i σ
    refine ⟨σ.swap i, ?_⟩
    simp only [anyLoop, Sched.swap_left, Sched.swap_right]
    rcases looks (h d (by simp)) (σ.sub i) with e | ⟨x, e⟩ <;> rcases looks (h c (by simp)) (σ.sub (i + 1)) with e' | ⟨x', e'⟩ <;>
      simp only [e, e'] <;> try exact .refl _
    rw [anyLoop_subs (σ := σ.swap i) (τ := σ) _ _ _ (fun j hj => Sched.swap_later σ i (by omega))]
    exact .refl _
  | @trans l1 l2 l3 p1 _ ih1 ih2 =>
    intro h i σ
    obtain ⟨τ, hτ⟩ := ih1 h i σ
    obtain ⟨τ', hτ'⟩ := ih2 (fun d hd => h d (p1.mem_iff.2 hd)) i τ
    exact ⟨τ', hτ'.trans hτ⟩

theorem allLoop_perm {v : GoVal} {l l' : List Sem} (hp : l.Perm l') : (∀ c ∈ l, c.ReadOnlyOn v ∧ c.NormalOn v) → ∀ (i : Nat) (σ : Sched),
    ∃ σ', AlikeOut (allLoop i l' σ' v) (allLoop i l σ v) := by
  induction hp with
  | nil => exact fun _ i σ => ⟨σ, .refl _⟩
  | @cons c l l' _ ih =>
    intro h i σ
    obtain ⟨τ, hτ⟩ := ih (fun d hd => h d (by simp [hd])) (i + 1) σ
    refine ⟨τ.set i (σ.sub i), ?_⟩
    simp only [allLoop, Sched.set_eq]
    rcases looks (h c (by simp)) (σ.sub i) with e | ⟨x, e⟩ <;> rw [e]
    · simp only
      rw [allLoop_subs _ _ _ (fun j hj => Sched.set_ne τ (σ.sub i) (by omega))]
      exact hτ
    · exact .refl _
  | swap c d l =>
    intro h i σ
    refine ⟨σ.swap i, ?_⟩
    simp only [allLoop, Sched.swap_left, Sched.swap_right]
    rcases looks (h d (by simp)) (σ.sub i) with e | ⟨x, e⟩ <;> rcases looks (h c (by simp)) (σ.sub (i + 1)) with e' | ⟨x', e'⟩ <;>
      simp only [e, e'] <;> try exact .err _ _ _
    rw [allLoop_subs (σ := σ.swap i) (τ := σ) _ _ _ (fun j hj => Sched.swap_later σ i (by omega))]
    exact .refl _
  | @trans l1 l2 l3 p1 _ ih1 ih2 =>
    intro h i σ
    obtain ⟨τ, hτ⟩ := ih1 h i σ
    obtain ⟨τ', hτ'⟩ := ih2 (fun d hd => h d (p1.mem_iff.2 hd)) i τ
    exact ⟨τ', hτ'.trans hτ⟩

theorem oneOfLoop_perm {v : GoVal} {l l' : List Sem} (hp : l.Perm l') : (∀ c ∈ l, c.ReadOnlyOn v ∧ c.NormalOn v) → ∀ (i n : Nat) (σ : Sched),
    ∃ σ', AlikeOut (oneOfLoop i n l' σ' v) (oneOfLoop i n l σ v) := by
  induction hp with
  | nil => exact fun _ i n σ => ⟨σ, .refl _⟩
  | @cons c l l' _ ih =>
    intro h i n σ
    rcases looks (h c (by simp)) (σ.sub i) with e | ⟨x, e⟩
    · obtain ⟨τ, hτ⟩ := ih (fun d hd => h d (by simp [hd])) (i + 1) (n + 1) σ
      refine ⟨τ.set i (σ.sub i), ?_⟩
      simp only [oneOfLoop, Sched.set_eq, e]
      rw [oneOfLoop_subs _ _ _ _ (fun j hj => Sched.set_ne τ (σ.sub i) (by omega))]
      exact hτ
    · obtain ⟨τ, hτ⟩ := ih (fun d hd => h d (by simp [hd])) (i + 1) n σ
      refine ⟨τ.set i (σ.sub i), ?_⟩
      simp only [oneOfLoop, Sched.set_eq, e]
      rw [oneOfLoop_subs _ _ _ _ (fun j hj => Sched.set_ne τ (σ.sub i) (by omega))]
      exact hτ
  | swap c d l =>
    intro h i n σ
    refine ⟨σ.swap i, ?_⟩
    simp only [oneOfLoop, Sched.swap_left, Sched.swap_right]
    rcases looks (h d (by simp)) (σ.sub i) with e | ⟨x, e⟩ <;> rcases looks (h c (by simp)) (σ.sub (i + 1)) with e' | ⟨x', e'⟩ <;>
      simp only [e, e'] <;>
      (rw [oneOfLoop_subs (σ := σ.swap i) (τ := σ) _ _ _ _ (fun j hj => Sched.swap_later σ i (by omega))]; exact .refl _)
  | @trans l1 l2 l3 p1 _ ih1 ih2 =>
    intro h i n σ
    obtain ⟨τ, hτ⟩ := ih1 h i n σ
    obtain ⟨τ', hτ'⟩ := ih2 (fun d hd => h d (p1.mem_iff.2 hd)) i n τ
    exact ⟨τ', hτ'.trans hτ⟩

theorem sameOn_of_alike {s t : Sem} {v : GoVal} (h1 : ∀ σ, ∃ σ', AlikeOut (t.val σ' v) (s.val σ v))
    (h2 : ∀ σ, ∃ σ', AlikeOut (s.val σ' v) (t.val σ v)) : s.SameOn t v := by
  have key : ∀ {s t : Sem}, (∀ σ, ∃ σ', AlikeOut (t.val σ' v) (s.val σ v)) → ∀ v',
      (s.MayAccept v v' → t.MayAccept v v') ∧ (s.MayReject v v' → t.MayReject v v') ∧ ∀ a, s.MayAbort v a → t.MayAbort v a := by
    intro s t h v'
    refine ⟨?_, ?_, ?_⟩
    · rintro ⟨σ, e⟩
      obtain ⟨σ', h⟩ := h σ
      rw [e] at h
      refine ⟨σ', ?_⟩
      generalize t.val σ' v = r at h ⊢
      cases h; rfl
    · rintro ⟨σ, x, e⟩
      obtain ⟨σ', h⟩ := h σ
      rw [e] at h
      refine ⟨σ', ?_⟩
      generalize t.val σ' v = r at h ⊢
      cases h; exact ⟨_, rfl⟩
    · rintro a ⟨σ, e⟩
      obtain ⟨σ', h⟩ := h σ
      refine ⟨σ', ?_⟩
      generalize s.val σ v = r at h e
      generalize t.val σ' v = r' at h ⊢
      cases h <;> simp_all
  exact fun v' => ⟨⟨(key h1 v').1, (key h2 v').1⟩, ⟨(key h1 v').2.1, (key h2 v').2.1⟩, fun a => ⟨(key h1 v').2.2 a, (key h2 v').2.2 a⟩⟩

/-- C117: the order of the branches of a combination does not matter for values that the branches leave as they are, in calls that return. -/
theorem C117_order {env : Env} {k : Nat} {cs cs' : List Constraint} (hp : cs.Perm cs') {v : GoVal}
    (h : ∀ c ∈ cs, (sem ext env k c).ReadOnlyOn v ∧ (sem ext env k c).NormalOn v) :
    (sem ext env k (.any cs)).SameOn (sem ext env k (.any cs')) v ∧ (sem ext env k (.all cs)).SameOn (sem ext env k (.all cs')) v ∧
    (sem ext env k (.oneOf cs)).SameOn (sem ext env k (.oneOf cs')) v := by
  simp only [sem, denote, denoteList_eq]
  have hp' := hp.map (denote ext (refSem ext env k))
  have h1 : ∀ c ∈ cs.map (denote ext (refSem ext env k)), c.ReadOnlyOn v ∧ c.NormalOn v := fun c hc => by
    obtain ⟨d, hd, rfl⟩ := List.mem_map.1 hc
    exact h d hd
  have h2 : ∀ c ∈ cs'.map (denote ext (refSem ext env k)), c.ReadOnlyOn v ∧ c.NormalOn v := fun c hc => h1 c (hp'.mem_iff.2 hc)
  exact ⟨sameOn_of_alike (anyLoop_perm hp' h1 0) (anyLoop_perm hp'.symm h2 0),
    sameOn_of_alike (allLoop_perm hp' h1 0) (allLoop_perm hp'.symm h2 0),
    sameOn_of_alike (oneOfLoop_perm hp' h1 0 0) (oneOfLoop_perm hp'.symm h2 0 0)⟩

/-! ## Examples -/

/-- Fills in `a`. -/
def exFills : Constraint := .object { Object' with props := [(b! "a", .boolean (some (.bool true)))], additional := some .empty }

/-- Asks for `a`. -/
def exWants : Constraint := .object { Object' with props := [(b! "a", .empty)], required := [b! "a"], additional := some .empty }

/-- C117: where branches fill in defaults their order does matter: the second branch sees what the first one did. -/
theorem C117_order_seen : ¬ (sem ext env0 0 (.all [exFills, exWants])).SameOn (sem ext env0 0 (.all [exWants, exFills])) (.map false []) := by
  intro h
  obtain ⟨σ, hσ⟩ := (h (.map false [(b! "a", .bool true)])).1.1 ⟨sched0, by rfl⟩
  have hn := C30_required_declared ext (refSem ext env0 0) (σ.sub 0)
    { Object' with props := [(b! "a", .empty)], required := [b! "a"], additional := some .empty } ⟨by decide⟩ (.map false [] (by decide)) (b! "a") (by decide) ⟨.empty, List.mem_cons_self ..⟩ (by rintro ⟨x, hx⟩; cases hx)
  apply hn
  unfold Sem.AcceptsBy
  simp only [sem, denote_all, List.map_cons, allLoop] at hσ
  change ((denote ext (refSem ext env0 0) exWants).val (σ.sub 0) (.map false [])).1 = .ok
  rcases e : (denote ext (refSem ext env0 0) exWants).val (σ.sub 0) (.map false []) with ⟨r, w⟩
  rw [e] at hσ
  cases r with
  | ok => rfl
  | err x => cases hσ
  | abort a => cases hσ

/-- At any place of any validator, for example in a list of lists. -/
example (c : Constraint) : (sem demoExt env0 3 (c.fill (9, b! "x") (.not (some (.any [.null, exFills]))))).SameVerdicts
    (sem demoExt env0 3 (c.fill (9, b! "x") (.all [.not (some .null), .not (some exFills)]))) :=
  (C116_replaced (C117_not (ext := demoExt) env0 3 [.null, exFills]).1 (9, b! "x") c).2

example : (sem0 (.any [.null, .any [exWants, .boolean none], exFills])).Equivalent (sem0 (.any [.null, exWants, .boolean none, exFills])) :=
  (C117_flat (ext := demoExt) env0 0 [.null] [exWants, .boolean none] [exFills]).2

/-- The two sides at work: the third branch accepts. -/
example : ((sem0 (.any [.null, .any [exWants, .boolean none], exFills])).val sched0 (.bool true)).1 = .ok ∧
    ((sem0 (.any [.null, exWants, .boolean none, exFills])).val sched0 (.bool true)).1 = .ok := by decide +kernel

/-- A value that the branches only look at. -/
example : (sem0 (.oneOf [.null, .boolean none, exWants])).SameOn (sem0 (.oneOf [exWants, .null, .boolean none])) (.bool true) := by
  refine (C117_order (ext := demoExt) (env := env0) (k := 0) (cs := [.null, .boolean none, exWants]) (cs' := [exWants, .null, .boolean none])
    (by
      have h : ([.null, .boolean none] ++ [exWants] : List Constraint).Perm ([exWants] ++ [.null, .boolean none]) := List.perm_append_comm
      exact h) ?_).2.2
  intro c hc
  simp only [List.mem_cons, List.not_mem_nil, or_false] at hc
  rcases hc with rfl | rfl | rfl <;> exact ⟨fun _ => rfl, fun _ a h => by cases h⟩

end Jsval
