import Verif.Lemmas.Revised
import Verif.Props.Stricter
import Verif.Props.UnseenOrder
/-!
# C127: documents that differ in optional and in unmentioned properties
-/
namespace Jsval

variable {ext : Ext} {env : Env} {L D : GoStr → Prop} {c : Constraint} {v w v' w' : GoVal} {σ τ : Sched}

/-- C127: if properties that may be missing are left out of an accepted document, and properties nobody mentions are added, left out or changed,
anywhere in it, no call returns an error for what results. -/
theorem C127_stays (henv : env.Every fun c => NoDefault c ∧ DisjointPatterns ext c) (hc : c.Every fun c => NoDefault c ∧ DisjointPatterns ext c)
    (hT : env.Every (Tolerates ext L D)) (ht : c.Every (Tolerates ext L D)) (hv : IsJson v) (hw : IsJson w) (hr : Revised L D v w)
    (ha : Accepted ext env c v) (τ : Sched) (e : Err) (w' : GoVal) : ¬ Returns ext env c τ w (.err e) w' := by
  obtain ⟨σ, v', -, k, h1⟩ := ha
  rintro ⟨-, l, h2⟩
  exact lasting_run henv hT _ c k l rfl hc ht v w hv hw hr σ τ e (by rw [h1]) (by rw [h2])

/-- C127 for properties that may be missing: every call that comes back accepts. -/
theorem C127_optional (henv : env.Every fun c => (NoDefault c ∧ DisjointPatterns ext c) ∧ ScalarEnum c)
    (hc : c.Every fun c => (NoDefault c ∧ DisjointPatterns ext c) ∧ ScalarEnum c) (hT : env.Every (Tolerates ext L fun _ => False))
    (ht : c.Every (Tolerates ext L fun _ => False)) (hv : IsJson v) (hw : IsJson w) (hr : Revised L (fun _ => False) v w)
    (ha : Accepted ext env c v) {r : Res} (h : Returns ext env c τ w r w') : r = .ok := by
  have hn : ∀ c, (NoDefault c ∧ DisjointPatterns ext c) ∧ ScalarEnum c → DefaultIn IsJson c ∧ ScalarEnum c := fun c h =>
    ⟨fun dv hdv => (by rw [h.1.1] at hdv; cases hdv), h.2⟩
  have := C44_json (henv.imp hn) (hc.imp hn) hw h
  cases r with
  | ok => rfl
  | err e => exact absurd h (C127_stays (henv.imp fun _ h => h.1) (hc.imp fun _ h => h.1) hT ht hv hw hr ha τ e w')
  | abort a => exact absurd rfl (this a)

/-- C127 for properties nobody mentions: two calls on documents that differ only in them, if both come back, agree on the verdict. -/
theorem C127_unmentioned (henv : env.Every fun c => (NoDefault c ∧ DisjointPatterns ext c) ∧ ScalarEnum c)
    (hc : c.Every fun c => (NoDefault c ∧ DisjointPatterns ext c) ∧ ScalarEnum c) (hT : env.Every (Tolerates ext (fun _ => False) D))
    (ht : c.Every (Tolerates ext (fun _ => False) D)) (hv : IsJson v) (hw : IsJson w) (hr : Revised (fun _ => False) D v w)
    {r r' : Res} (h : Returns ext env c σ v r v') (h' : Returns ext env c τ w r' w') : r = .ok ↔ r' = .ok := by
  have hn : ∀ c, (NoDefault c ∧ DisjointPatterns ext c) ∧ ScalarEnum c → DefaultIn IsJson c ∧ ScalarEnum c := fun c h =>
    ⟨fun dv hdv => (by rw [h.1.1] at hdv; cases hdv), h.2⟩
  have key : ∀ {v w v' w' : GoVal} {σ τ : Sched} {r r' : Res}, IsJson v → IsJson w → Revised (fun _ => False) D v w →
      Returns ext env c σ v r v' → Returns ext env c τ w r' w' → r = .ok → r' = .ok := by
    rintro v w v' w' σ τ _ r' hv hw hr h h' rfl
    cases r' with
    | ok => rfl
    | err e => exact absurd h' (C127_stays (henv.imp fun _ h => h.1) (hc.imp fun _ h => h.1) hT ht hv hw hr ⟨σ, v', h⟩ τ e w')
    | abort a => exact absurd rfl (C44_json (henv.imp hn) (hc.imp hn) hw h' a)
  exact ⟨key hv hw hr h h', key hw hv (hr.swap fun _ => id) h' h⟩

/-- Taking out the defaults changes nothing about it. -/
theorem tolerates_plain (h : c.Every (Tolerates ext L D)) : c.plain.Every (Tolerates ext L D) := by
  have hsort : ∀ c : Constraint, c.Plainly → c.plain.Plainly := by
    rintro c ⟨k, h1, h2⟩
    refine ⟨k, ?_, h2⟩
    cases c <;> simp only [Constraint.plain, Constraint.sort?] at h1 ⊢ <;> first | exact h1 | cases h1
  induction c using Constraint.ind with
  | h c ih =>
    refine every_of_children ?_ fun d hd => ?_
    · cases c with
      | array a =>
        rw [plain_array]
        intro hu
        obtain ⟨d, hd, hp⟩ := h.self hu
        exact ⟨d.plain, Option.map_eq_some_iff.2 ⟨d, hd, rfl⟩, hsort d hp⟩
      | object o =>
        rw [plain_object]
        obtain ⟨h1, h2⟩ := h.self
        refine ⟨fun k hk => ⟨fun hd => (h1 k hk).1 ((ObjC.map_declares _ o).1 hd), (h1 k hk).2⟩, fun k hk =>
          ⟨fun hcov => (h2 k hk).1 ((ObjC.map_covers _ o).1 hcov), ?_, (h2 k hk).2.2⟩⟩
        exact Option.map_eq_some_iff.2 ⟨_, (h2 k hk).2.1, rfl⟩
      | oneOf cs =>
        simp only [Constraint.plain, plainList_eq, Tolerates]
        refine (h.self : _ ∨ _).imp id fun hp d hd => ?_
        obtain ⟨e, he, rfl⟩ := List.mem_map.1 hd
        exact hsort e (hp e he)
      | not d =>
        cases d with
        | none => simp [Constraint.plain, plainOpt, Tolerates]
        | some d =>
          simp only [Constraint.plain, plainOpt, Tolerates]
          exact (h.self : _ ∨ _).imp id (hsort d)
      | enum l => exact h.self
      | _ => trivial
    · obtain ⟨e, h1, rfl⟩ := plain_child hd
      exact ih e h1 (h.child h1)

/-- C127 with defaults that nothing sees, filled in where properties are left out. -/
theorem C127_decoded (henv : env.Every fun c => Unseen env c ∧ DisjointPatterns ext c) (hc : c.Every fun c => Unseen env c ∧ DisjointPatterns ext c)
    (hT : env.Every (Tolerates ext L D)) (ht : c.Every (Tolerates ext L D)) (hv : IsJson v) (hw : IsJson w) (hr : Revised L D v w)
    (ha : Accepted ext env c v) (τ : Sched) (e : Err) (w' : GoVal) : ¬ Returns ext env c τ w (.err e) w' := by
  intro h
  obtain ⟨σ, v', hσ⟩ := ha
  have hu : env.Every (Unseen env) := henv.imp fun _ h => h.1
  have hu' : c.Every (Unseen env) := hc.imp fun _ h => h.1
  exact C127_stays (env_plain_every henv fun _ => plain_orderly) (plain_orderly hc) (env_plain_every hT fun _ => tolerates_plain) (tolerates_plain ht) hv hw hr
    ⟨σ, v, (C88_returns hu hu' hv).1 ⟨v', hσ⟩⟩ τ e w ((C88_returns hu hu' hw).1 ⟨w', h⟩)

/-! ## Examples -/

/-- Someone with a name and, possibly, friends; whatever else is said about them is not looked at. -/
def exPal : Constraint := .object { Object' with
  props := [(b! "name", .string String'), (b! "friends", .array (Array'.Items (some (.ref 0 (b! "pal")))))]
  required := [b! "name"], additional := some .empty }
def exPalEnv : Env := fun m n => if m = 0 ∧ n = b! "pal" then some exPal else none
/-- friends may be missing, and notes do not matter -/
def exMayMiss (k : GoStr) : Prop := k = b! "friends"
def exNotes (k : GoStr) : Prop := k = b! "note"

def exPalB : GoVal := .map false [(b! "name", .str (b! "B")), (b! "friends", .slice false [])]
def exPalB' : GoVal := .map false [(b! "note", .bool true), (b! "name", .str (b! "B"))]
def exPalA : GoVal := .map false [(b! "name", .str (b! "A")), (b! "note", .nil), (b! "friends", .slice false [exPalB])]
def exPalA' : GoVal := .map false [(b! "friends", .slice false [exPalB']), (b! "name", .str (b! "A"))]

theorem exPal_kids : exPal.kids = [.string String', .array (Array'.Items (some (.ref 0 (b! "pal")))), .empty] := rfl

theorem exPal_every {P : Constraint → Prop} (h1 : P exPal) (h2 : P (.string String')) (h3 : P (.array (Array'.Items (some (.ref 0 (b! "pal"))))))
    (h4 : P .empty) (h5 : P (.ref 0 (b! "pal"))) : exPal.Every P := by
  have hleaf : ∀ c : Constraint, c.kids = [] → P c → c.Every P := fun c h1 h2 => .intro h2 (by rw [h1]; simp)
  refine .intro h1 fun d hd => ?_
  rw [exPal_kids] at hd
  simp only [List.mem_cons, List.not_mem_nil, or_false] at hd
  rcases hd with rfl | rfl | rfl
  · exact hleaf _ rfl h2
  · refine .intro h3 fun d hd => ?_
    rw [show Constraint.kids (.array (Array'.Items (some (.ref 0 (b! "pal"))))) = [.ref 0 (b! "pal"), .empty] from rfl] at hd
    simp only [List.mem_cons, List.not_mem_nil, or_false] at hd
    rcases hd with rfl | rfl
    · exact hleaf _ rfl h5
    · exact hleaf _ rfl h4
  · exact hleaf _ rfl h4

theorem exPalEnv_every {P : Constraint → Prop} (h : exPal.Every P) : exPalEnv.Every P := by
  intro m n c hc
  unfold exPalEnv at hc
  split at hc
  · cases hc; exact h
  · cases hc

theorem exPal_orderly : exPal.Every fun c => (NoDefault c ∧ DisjointPatterns demoExt c) ∧ ScalarEnum c := by
  refine exPal_every ⟨⟨rfl, ⟨by decide⟩, fun k _ p hp => by cases hp⟩, ?_⟩ ⟨⟨rfl, trivial⟩, ?_⟩ ⟨⟨rfl, trivial⟩, ?_⟩ ⟨⟨rfl, trivial⟩, ?_⟩ ⟨⟨rfl, trivial⟩, ?_⟩ <;>
    (intro x hx; cases hx)

theorem exPal_tolerates : exPal.Every (Tolerates demoExt exMayMiss exNotes) := by
  refine exPal_every ⟨fun k hk => ?_, fun k hk => ?_⟩ trivial (fun h => by cases h) trivial trivial
  · cases hk
    exact ⟨(fun _ h => absurd h (by decide)), (fun q h => by cases h), by decide⟩
  · cases hk
    refine ⟨?_, rfl, by decide, by decide⟩
    rintro (⟨c, hc⟩ | ⟨id, src, c, hc, -⟩)
    · simp only [List.mem_cons, Prod.mk.injEq, List.not_mem_nil, or_false] at hc
      rcases hc with ⟨h, -⟩ | ⟨h, -⟩ <;> exact absurd h (by decide)
    · cases hc

theorem exPal_notes : exPal.Every (Tolerates demoExt (fun _ => False) exNotes) := exPal_tolerates.imp fun c h => by
  cases c with
  | object o => exact ⟨(fun _ h => h.elim), h.2⟩
  | oneOf cs => exact .inl fun _ => id
  | not c => cases c <;> first | trivial | exact .inl fun _ => id
  | array a => exact h
  | enum l => exact h
  | _ => trivial

theorem exPalB_json : IsJson exPalB := by
  refine .obj _ (by decide) fun k x hx => ?_
  simp only [List.mem_cons, Prod.mk.injEq, List.not_mem_nil, or_false] at hx
  rcases hx with ⟨-, rfl⟩ | ⟨-, rfl⟩
  · exact .str _
  · exact .arr _ fun x hx => by cases hx

theorem exPalB'_json : IsJson exPalB' := by
  refine .obj _ (by decide) fun k x hx => ?_
  simp only [List.mem_cons, Prod.mk.injEq, List.not_mem_nil, or_false] at hx
  rcases hx with ⟨-, rfl⟩ | ⟨-, rfl⟩
  · exact .bool _
  · exact .str _

theorem exPalA_json : IsJson exPalA := by
  refine .obj _ (by decide) fun k x hx => ?_
  simp only [List.mem_cons, Prod.mk.injEq, List.not_mem_nil, or_false] at hx
  rcases hx with ⟨-, rfl⟩ | ⟨-, rfl⟩ | ⟨-, rfl⟩
  · exact .str _
  · exact .null
  · exact .arr _ fun x hx => by rw [List.mem_singleton.1 hx]; exact exPalB_json

theorem exPalA'_json : IsJson exPalA' := by
  refine .obj _ (by decide) fun k x hx => ?_
  simp only [List.mem_cons, Prod.mk.injEq, List.not_mem_nil, or_false] at hx
  rcases hx with ⟨-, rfl⟩ | ⟨-, rfl⟩
  · exact .arr _ fun x hx => by rw [List.mem_singleton.1 hx]; exact exPalB'_json
  · exact .str _

theorem exPalB_revised : Revised exMayMiss exNotes exPalB exPalB' := by
  refine .obj _ _ ?_ ?_ ?_
  · rintro k ⟨x, hx⟩
    simp only [List.mem_cons, Prod.mk.injEq, List.not_mem_nil, or_false] at hx
    rcases hx with ⟨rfl, -⟩ | ⟨rfl, -⟩
    · exact .inr rfl
    · exact .inl ⟨_, List.mem_cons_self ..⟩
  · rintro k ⟨x, hx⟩
    simp only [List.mem_cons, Prod.mk.injEq, List.not_mem_nil, or_false] at hx
    rcases hx with ⟨rfl, -⟩ | ⟨rfl, -⟩
    · exact .inl ⟨_, List.mem_cons_of_mem _ (List.mem_cons_self ..)⟩
    · exact .inr (.inl rfl)
  · intro k x y hx hy _
    simp only [List.mem_cons, Prod.mk.injEq, List.not_mem_nil, or_false] at hx hy
    rcases hx with ⟨rfl, rfl⟩ | ⟨rfl, rfl⟩ <;> rcases hy with ⟨h, rfl⟩ | ⟨h, rfl⟩ <;> first | exact .same _ | exact absurd h (by decide)

theorem exPalA_revised : Revised exMayMiss exNotes exPalA exPalA' := by
  refine .obj _ _ ?_ ?_ ?_
  · rintro k ⟨x, hx⟩
    simp only [List.mem_cons, Prod.mk.injEq, List.not_mem_nil, or_false] at hx
    rcases hx with ⟨rfl, -⟩ | ⟨rfl, -⟩
    · exact .inl ⟨_, List.mem_cons_of_mem _ (List.mem_cons_of_mem _ (List.mem_cons_self ..))⟩
    · exact .inl ⟨_, List.mem_cons_self ..⟩
  · rintro k ⟨x, hx⟩
    simp only [List.mem_cons, Prod.mk.injEq, List.not_mem_nil, or_false] at hx
    rcases hx with ⟨rfl, -⟩ | ⟨rfl, -⟩ | ⟨rfl, -⟩
    · exact .inl ⟨_, List.mem_cons_of_mem _ (List.mem_cons_self ..)⟩
    · exact .inr (.inr rfl)
    · exact .inl ⟨_, List.mem_cons_self ..⟩
  · intro k x y hx hy hk
    simp only [List.mem_cons, Prod.mk.injEq, List.not_mem_nil, or_false] at hx hy
    rcases hx with ⟨rfl, rfl⟩ | ⟨rfl, rfl⟩ | ⟨rfl, rfl⟩
    · rcases hy with ⟨h, rfl⟩ | ⟨h, rfl⟩
      · exact absurd h (by decide)
      · exact .same _
    · exact absurd rfl hk
    · rcases hy with ⟨h, rfl⟩ | ⟨h, rfl⟩
      · refine .arr _ _ rfl fun i x y hx hy => ?_
        cases i with
        | zero => cases hx; cases hy; exact exPalB_revised
        | succ i => simp at hx
      · exact absurd h (by decide)

theorem exPalA_accepted : Accepted demoExt exPalEnv exPal exPalA := ⟨sched0, _, by simp, 3, rfl⟩

/-- A friend's empty list of friends left out, one note added and another one taken away: no call complains. -/
example (σ : Sched) (e : Err) (w : GoVal) : ¬ Returns demoExt exPalEnv exPal σ exPalA' (.err e) w :=
  C127_stays (exPalEnv_every (exPal_orderly.imp fun _ h => h.1)) (exPal_orderly.imp fun _ h => h.1) (exPalEnv_every exPal_tolerates) exPal_tolerates
    exPalA_json exPalA'_json exPalA_revised exPalA_accepted σ e w

/-- Under a `Not` notes still make no difference: whatever the call returns for a friend, it returns for the same friend without notes. -/
def exNoPal : Constraint := .not (some (.ref 0 (b! "pal")))
theorem exNoPal_every {P : Constraint → Prop} (h1 : P exNoPal) (h2 : P (.ref 0 (b! "pal"))) : exNoPal.Every P := by
  refine .intro h1 fun d hd => ?_
  rw [show exNoPal.kids = [.ref 0 (b! "pal")] from rfl, List.mem_singleton] at hd
  subst hd
  exact .intro h2 fun d hd => by simp [Constraint.kids] at hd

def exNoted (x : GoVal) : GoVal := .map false [(b! "name", x), (b! "note", .bool true)]
def exUnnoted (x : GoVal) : GoVal := .map false [(b! "name", x)]

example (x : GoVal) (hx : IsJson x) (σ τ : Sched) (r r' : Res) (v w : GoVal) (h : Returns demoExt exPalEnv exNoPal σ (exNoted x) r v)
    (h' : Returns demoExt exPalEnv exNoPal τ (exUnnoted x) r' w) : r = .ok ↔ r' = .ok := by
  refine C127_unmentioned (exPalEnv_every exPal_orderly) (exNoPal_every ⟨⟨rfl, trivial⟩, ?_⟩ ⟨⟨rfl, trivial⟩, ?_⟩) (exPalEnv_every exPal_notes)
    (exNoPal_every (.inl fun _ => id) trivial) ?_ ?_ ?_ h h'
  · intro x hx; cases hx
  · intro x hx; cases hx
  · refine .obj _ (show [b! "name", b! "note"].Nodup by decide) fun k y hy => ?_
    simp only [List.mem_cons, Prod.mk.injEq, List.not_mem_nil, or_false] at hy
    rcases hy with ⟨-, rfl⟩ | ⟨-, rfl⟩
    · exact hx
    · exact .bool _
  · refine .obj _ (show [b! "name"].Nodup by decide) fun k y hy => ?_
    simp only [List.mem_cons, Prod.mk.injEq, List.not_mem_nil, or_false] at hy
    rw [hy.2]; exact hx
  · refine .obj _ _ ?_ ?_ ?_
    · rintro k ⟨y, hy⟩
      simp only [List.mem_cons, Prod.mk.injEq, List.not_mem_nil, or_false] at hy
      rw [hy.1]
      exact .inl ⟨_, List.mem_cons_self ..⟩
    · rintro k ⟨y, hy⟩
      simp only [List.mem_cons, Prod.mk.injEq, List.not_mem_nil, or_false] at hy
      rcases hy with ⟨rfl, -⟩ | ⟨rfl, -⟩
      · exact .inl ⟨_, List.mem_cons_self ..⟩
      · exact .inr (.inr rfl)
    · intro k y z hy hz hk
      simp only [List.mem_cons, Prod.mk.injEq, List.not_mem_nil, or_false] at hy hz
      rcases hy with ⟨rfl, rfl⟩ | ⟨rfl, rfl⟩
      · rw [hz.2]; exact .same _
      · exact absurd rfl hk
/-- Such calls come back, with either verdict. -/
example : (∃ w, Returns demoExt exPalEnv exNoPal sched0 (exNoted .nil) .ok w) ∧
    ∃ w, Returns demoExt exPalEnv exNoPal sched0 (exNoted (.str [])) (.err .notFailed) w := ⟨⟨_, by simp, 3, rfl⟩, ⟨_, by simp, 3, rfl⟩⟩

/-- Optional properties do make a difference under a `Not`: someone with bad friends is no friend, and becomes one if they are left out. -/
example : (∃ w, Returns demoExt exPalEnv exNoPal sched0 (.map false [(b! "name", .str []), (b! "friends", .nil)]) .ok w) ∧
    ∃ w, Returns demoExt exPalEnv exNoPal sched0 (.map false [(b! "name", .str [])]) (.err .notFailed) w := ⟨⟨_, by simp, 3, rfl⟩, ⟨_, by simp, 3, rfl⟩⟩

theorem exPal_missing : exPal.Every (Tolerates demoExt exMayMiss fun _ => False) := exPal_tolerates.imp fun c h => by
  cases c with
  | object o => exact ⟨h.1, fun _ h => h.elim⟩
  | not c => cases c <;> first | trivial | exact h
  | oneOf cs => exact h
  | array a => exact h
  | enum l => exact h
  | _ => trivial

/-- Friends left out, for any name. -/
example (s : GoStr) (xs : List GoVal) (hxs : IsJson (.slice false xs))
    (ha : Accepted demoExt exPalEnv exPal (.map false [(b! "name", .str s), (b! "friends", .slice false xs)])) (τ : Sched) (r : Res) (w : GoVal)
    (h : Returns demoExt exPalEnv exPal τ (exUnnoted (.str s)) r w) : r = .ok := by
  refine C127_optional (exPalEnv_every exPal_orderly) exPal_orderly (exPalEnv_every exPal_missing) exPal_missing ?_ ?_ ?_ ha h
  · refine .obj _ (show [b! "name", b! "friends"].Nodup by decide) fun k y hy => ?_
    simp only [List.mem_cons, Prod.mk.injEq, List.not_mem_nil, or_false] at hy
    rcases hy with ⟨-, rfl⟩ | ⟨-, rfl⟩
    · exact .str s
    · exact hxs
  · refine .obj _ (show [b! "name"].Nodup by decide) fun k y hy => ?_
    simp only [List.mem_cons, Prod.mk.injEq, List.not_mem_nil, or_false] at hy
    rw [hy.2]; exact .str s
  · refine .obj _ _ ?_ ?_ ?_
    · rintro k ⟨y, hy⟩
      simp only [List.mem_cons, Prod.mk.injEq, List.not_mem_nil, or_false] at hy
      rw [hy.1]
      exact .inl ⟨_, List.mem_cons_self ..⟩
    · rintro k ⟨y, hy⟩
      simp only [List.mem_cons, Prod.mk.injEq, List.not_mem_nil, or_false] at hy
      rcases hy with ⟨rfl, -⟩ | ⟨rfl, -⟩
      · exact .inl ⟨_, List.mem_cons_self ..⟩
      · exact .inr (.inl rfl)
    · intro k y z hy hz _
      simp only [List.mem_cons, Prod.mk.injEq, List.not_mem_nil, or_false] at hy hz
      rcases hy with ⟨rfl, rfl⟩ | ⟨rfl, rfl⟩
      · rw [hz.2]; exact .same _
      · exact absurd hz.1 (by decide)
example : Accepted demoExt exPalEnv exPal (.map false [(b! "name", .str (b! "C")), (b! "friends", .slice false [exPalB])]) := ⟨sched0, _, by simp, 3, rfl⟩

/-- A nickname, `"-"` unless given. -/
def exNick : Constraint := .object { Object' with props := [(b! "nick", .string (String'.Default (.str (b! "-"))))] }
theorem exNick_every {P : Constraint → Prop} (h1 : P exNick) (h2 : P (.string (String'.Default (.str (b! "-"))))) : exNick.Every P := by
  refine .intro h1 fun d hd => ?_
  rw [show exNick.kids = [.string (String'.Default (.str (b! "-")))] from rfl, List.mem_singleton] at hd
  subst hd
  exact .intro h2 fun d hd => by simp [Constraint.kids] at hd

/-- It may be left out; the call fills it in. -/
example (τ : Sched) (e : Err) (w : GoVal) : ¬ Returns demoExt env0 exNick τ (.map false []) (.err e) w := by
  refine C127_decoded (L := fun k => k = b! "nick") (D := fun _ => False) (v := .map false [(b! "nick", .str (b! "Al"))]) (fun m n c h => by cases h)
    (exNick_every ⟨⟨⟨by decide⟩, .inl rfl⟩, ⟨by decide⟩, fun k _ p hp => by cases hp⟩ ⟨trivial, trivial⟩) (fun m n c h => by cases h)
    (exNick_every ⟨fun k hk => ⟨(fun _ h => by cases h), (fun q h => by cases h), by decide⟩, fun _ h => h.elim⟩ trivial) ?_ ?_ ?_
    ⟨sched0, _, by simp, 0, rfl⟩ τ e w
  · refine .obj _ (by decide) fun k y hy => ?_
    simp only [List.mem_cons, Prod.mk.injEq, List.not_mem_nil, or_false] at hy
    rw [hy.2]; exact .str _
  · exact .obj _ (by decide) fun k y hy => by cases hy
  · refine .obj _ _ ?_ ?_ ?_
    · rintro k ⟨y, hy⟩; cases hy
    · rintro k ⟨y, hy⟩
      simp only [List.mem_cons, Prod.mk.injEq, List.not_mem_nil, or_false] at hy
      exact .inr (.inl hy.1)
    · intro k y z hy hz; cases hz
example : Returns demoExt env0 exNick sched0 (.map false []) .ok (.map false [(b! "nick", .str (b! "-"))]) := ⟨by simp, 0, rfl⟩

end Jsval
