import Verif.Lemmas.Pointers
import Verif.Lemmas.ObjExact
/-!
# C112: passing the address of what is validated
-/
namespace Jsval

variable {ext : Ext} {env : Env} {fuel : Nat} {σ : Sched}

theorem denote_through {ρ : RefSem} (hρ : ∀ m n, (ρ m n).SeesThrough) {c : Constraint} (hc : c.Through) : (denote ext ρ c).SeesThrough := by
  have of_val : ∀ {e e' : Sem}, e.val = e'.val → e'.SeesThrough → e.SeesThrough := by
    intro e e' h h' σ v hv
    rw [h]
    exact h' σ v hv
  induction hc with
  | empty => exact fun _ v hv => ⟨by simp [denote], by simpa [denote] using hv⟩
  | string c =>
    rw [denote]
    exact pureV_through (fun v hv => by rw [strCheck, strCheck, hv.indirect.1, hv.indirect.2]) _
  | number c =>
    rw [denote]
    exact pureV_through (fun v hv => by rw [numCheck, numCheck, hv.indirect.1, hv.indirect.2]) _
  | integer c =>
    rw [denote]
    exact pureV_through (fun v hv => by rw [intCheck, intCheck, hv.indirect.1, hv.indirect.2]) _
  | object _ ih =>
    refine of_val (e' := ⟨.none, objectV ext (ObjC.map (denote ext ρ) _)⟩) (denote_object ext ρ _) (objectV_through (fun p c h => ?_) _)
    have hm := alookup_mem h
    simp only [ObjC.map, List.mem_map, Prod.mk.injEq] at hm
    obtain ⟨q, hq, rfl, rfl⟩ := hm
    exact ih q.1 q.2 hq
  | any _ ih =>
    exact of_val (e' := ⟨.none, anyLoop 0 (List.map (denote ext ρ) _)⟩) (denote_any ext ρ _) (anyLoop_through (fun c h => by obtain ⟨d, hd, rfl⟩ := List.mem_map.1 h; exact ih d hd) 0 _)
  | all _ ih =>
    exact of_val (e' := ⟨.none, allLoop 0 (List.map (denote ext ρ) _)⟩) (denote_all ext ρ _) (allLoop_through (fun c h => by obtain ⟨d, hd, rfl⟩ := List.mem_map.1 h; exact ih d hd) 0 _)
  | oneOf _ ih =>
    exact of_val (e' := ⟨.none, oneOfLoop 0 0 (List.map (denote ext ρ) _)⟩) (denote_oneOf ext ρ _) (oneOfLoop_through (fun c h => by obtain ⟨d, hd, rfl⟩ := List.mem_map.1 h; exact ih d hd) 0 0 _)
  | notNil => exact of_val (e' := ⟨.none, notV none⟩) (denote_not ext ρ none) fun _ v hv => ⟨rfl, hv⟩
  | not _ ih => exact of_val (e' := ⟨.none, notV (some _)⟩) (denote_not ext ρ (some _)) (notV_through ih _)
  | ref m n => rw [denote]; exact hρ m n

theorem refSem_through (he : ∀ m n c, env m n = some c → c.Through) : ∀ k m n, (refSem ext env k m n).SeesThrough
  | 0, _, _ => fun _ v hv => ⟨rfl, hv⟩
  | k + 1, m, n => by
    show Sem.SeesThrough (match env m n with | none => unresolved n | some c => denote ext (refSem ext env k) c)
    cases h : env m n with
    | none => exact fun _ v hv => ⟨rfl, hv⟩
    | some c => exact denote_through (refSem_through he k) (he m n c h)

/-- C112: constraints that dereference their argument do the same, in every order, through a pointer as on the value: strings, numbers and maps; the same
verdict, and the same defaults in the same places. (Structs: C60, C90 and C94.) -/
theorem C112_pointer (he : ∀ m n c, env m n = some c → c.Through) {c : Constraint} (hc : c.Through) {v : GoVal} (hv : v.Here) :
    (sem ext env fuel c).val σ (.ptr (some v)) = (((sem ext env fuel c).val σ v).1, .ptr (some ((sem ext env fuel c).val σ v).2)) :=
  (denote_through (refSem_through he fuel) hc σ v hv).1

/-- an object with a default and a schema dependency, or a string -/
def exThrough : Constraint :=
  .any [.object (((Object'.AddProp (b! "a") (.string (String'.Default (.str (b! "d"))))).AddProp (b! "b") (.boolean none)).SchemaDependency (b! "b")
    (.object ((Object'.AddProp (b! "a") (.string String')).AdditionalProperties (some .empty)))), .string String']

theorem exThrough_through : exThrough.Through := by
  refine .any fun c hc => ?_
  simp only [List.mem_cons, List.not_mem_nil, or_false] at hc
  rcases hc with rfl | rfl
  · refine .object fun p c h => ?_
    have : (p, c) ∈ [(b! "b", Constraint.object ((Object'.AddProp (b! "a") (.string String')).AdditionalProperties (some .empty)))] := h
    simp only [List.mem_singleton, Prod.mk.injEq] at this
    obtain ⟨-, rfl⟩ := this
    exact .object fun p c h => by cases h
  · exact .string _

example : (sem0 exThrough).val sched0 (.ptr (some (.map false [(b! "b", .bool true)]))) =
    (.ok, .ptr (some (.map false [(b! "b", .bool true), (b! "a", .str (b! "d"))]))) :=
  C112_pointer (ext := demoExt) (env := env0) (fuel := 0) (σ := sched0) (fun _ _ _ h => by cases h) exThrough_through (v := .map false [(b! "b", .bool true)]) trivial

/-- C112: booleans, arrays and null do not look through pointers, and neither do enumerations that list none: every pointer to something is rejected. -/
theorem C112_unseen (u : GoVal) : ((sem ext env fuel (.boolean d)).val σ (.ptr (some u))).1.Rejects ∧ ((sem ext env fuel (.array a)).val σ (.ptr (some u))).1.Rejects ∧
    ((sem ext env fuel .null).val σ (.ptr (some u))).1.Rejects ∧
    ∀ l : List GoVal, (∀ x ∈ l, ∀ p, x ≠ .ptr p) → ((sem ext env fuel (.enum l)).val σ (.ptr (some u))).1.Rejects := by
  refine ⟨⟨_, rfl⟩, ⟨_, rfl⟩, ⟨_, rfl⟩, fun l => ?_⟩
  show _ → (enumCheck l _).Rejects
  induction l with
  | nil => exact fun _ => ⟨_, rfl⟩
  | cons x l ih =>
    intro h
    have hx := h x (by simp)
    have : goEq x (.ptr (some u)) = .ok false := by
      cases x <;> first | rfl | exact absurd rfl (hx _)
    rw [enumCheck, this]
    exact ih fun y hy => h y (by simp [hy])

example : ((sem0 (.boolean none)).val sched0 (.bool true)).1 = .ok ∧ ((sem0 (.array Array')).val sched0 (.slice false [])).1 = .ok ∧
    ((sem0 .null).val sched0 (.map true [])).1 = .ok ∧ ((sem0 (.enum [.str (b! "x")])).val sched0 (.str (b! "x"))).1 = .ok := by decide +kernel

/-- C112 as worded fails: the usual `var v interface{}; json.Unmarshal(data, &v)` followed by `Validate(&v)` rejects a document that `Validate(v)` accepts, and
replaces its data by the default. -/
theorem C112_refuted : ¬ ∀ (c : Constraint), c.Through → ∀ v, v.Here → ((sem0 c).val sched0 (.ptr (some (.iface v)))).1 = ((sem0 c).val sched0 v).1 := by
  intro h
  have := h exThrough exThrough_through (.map false [(b! "a", .str (b! "x"))]) trivial
  revert this
  decide +kernel

example : ((sem0 exThrough).val sched0 (.map false [(b! "a", .str (b! "x"))])) = (.ok, .map false [(b! "a", .str (b! "x"))]) ∧
    ((sem0 exThrough).val sched0 (.ptr (some (.iface (.map false [(b! "a", .str (b! "x"))]))))) =
      (.err .anyNone, .ptr (some (.iface (.map false [(b! "a", .str (b! "d"))])))) := ⟨rfl, rfl⟩

/-- C112, what does happen behind two indirections: strings, numbers, integers, booleans and arrays are rejected, whatever they are. -/
theorem C112_twice_scalars {v x : GoVal} (hv : Twice v x) {c : Constraint}
    (hc : (∃ s, c = .string s) ∨ (∃ s, c = .number s) ∨ (∃ s, c = .integer s) ∨ (∃ s, c = .boolean s) ∨ ∃ s, c = .array s) :
    ((sem ext env fuel c).val σ v).1.Rejects ∧ ((sem ext env fuel c).val σ v).2 = v := by
  cases hv <;> rcases hc with ⟨s, rfl⟩ | ⟨s, rfl⟩ | ⟨s, rfl⟩ | ⟨s, rfl⟩ | ⟨s, rfl⟩ <;> exact ⟨⟨_, rfl⟩, rfl⟩

example : Twice (.ptr (some (.iface (.str (b! "x"))))) (.str (b! "x")) := .iface _

/-- C112: an object constraint accepts, of all objects behind two indirections, only those without properties. -/
theorem C112_twice_empty {o : ObjC Constraint} {v x : GoVal} (hv : Twice v x) {kvs raws : List (GoStr × GoVal)} (hx : IsObj x kvs raws)
    (h : (sem ext env fuel (.object o)).AcceptsBy σ v) : kvs = [] := by
  unfold Sem.AcceptsBy sem at h
  rw [denote_object, objectV_twice hv] at h
  have h1 := h.1
  cases hx with
  | map n kvs hn =>
    have : getPropNames (valueOf v).indirect = .ok (kvs.map (·.1)) := by cases hv <;> rfl
    rw [this] at h1
    simpa using h1
  | struct fs hf =>
    obtain ⟨b, t, ha⟩ := (IsObj.struct fs hf).acc
    obtain ⟨fields, hf1, hlen, -⟩ := ha.names
    have e1 := ha.eq
    have : getPropNames (valueOf v).indirect = getPropNames (some (.struct fs)) := by cases hv <;> rfl
    have ht : t = .struct fs := by
      cases b with
      | false => exact e1.symm
      | true => cases e1
    rw [this, ← ht, hf1] at h1
    cases h1
    exact List.length_eq_zero_iff.1 hlen.symm
  | ptrMap n kvs hn =>
    have : getPropNames (valueOf v).indirect = .error (.err .noPropNames) := by cases hv <;> rfl
    rw [this] at h1; cases h1
  | ptrStruct fs hf =>
    have : getPropNames (valueOf v).indirect = .error (.err .noPropNames) := by cases hv <;> rfl
    rw [this] at h1; cases h1

/-- C112, exactly for maps: behind two indirections, an object constraint accepts the map exactly if it is empty, no properties are asked for (by number or by
name), and no default has to go to a nil map. -/
theorem C112_twice_iff {o : ObjC Constraint} (hw : o.Wf) {v : GoVal} {n : Bool} {kvs : List (GoStr × GoVal)} (hv : Twice v (.map n kvs)) :
    (sem ext env fuel (.object o)).AcceptsBy σ v ↔ kvs = [] ∧ o.minProps ≤ 0 ∧ ∀ p c, (p, c) ∈ o.props → p ∉ o.required ∧
      (∀ a, (sem ext env fuel c).dflt ≠ .abort a) ∧ ∀ dv, (sem ext env fuel c).dflt = .some dv → n = true → dv = .nil := by
  unfold Sem.AcceptsBy
  rw [sem, denote_object, objectV_twice hv]
  have h1 : getPropNames (valueOf v).indirect = .ok (kvs.map (·.1)) := by cases hv <;> rfl
  have hp := shuffle_perm (o.map (denote ext (refSem ext env fuel))).props (σ.sub 0).key
  have hn : ((o.map (denote ext (refSem ext env fuel))).props.map (·.1)).Nodup := by simpa [ObjC.map, Function.comp_def] using hw.props
  have h2 := (propLoop_twice (ext := ext) (o := o.map (denote ext (refSem ext env fuel))) (σ := σ.sub 1) _ 0 kvs [] [] hv ((hp.map _).nodup_iff.2 hn)).1
  rw [h1, h2]
  refine and_congr (by simp) (and_congr Iff.rfl ?_)
  constructor
  · intro h p c hm
    exact h (p, _) (hp.mem_iff.2 (List.mem_map.2 ⟨(p, c), hm, rfl⟩))
  · intro h pc hm
    obtain ⟨⟨p, c⟩, hm', rfl⟩ := List.mem_map.1 (hp.mem_iff.1 hm)
    exact h p c hm'

example : (sem0 (.object (Object'.AddProp (b! "a") (.string (String'.Default (.str (b! "d"))))))).AcceptsBy σ (.ptr (some (.iface (.map false [])))) :=
  (C112_twice_iff (ext := demoExt) (env := env0) (fuel := 0) ⟨by decide⟩ (.iface _)).2 ⟨rfl, by decide, fun p c h => by
    cases List.mem_singleton.1 h
    exact ⟨by decide, nofun, fun _ _ h => by cases h⟩⟩

/-- C112: where properties are neither required nor allowed to be left over, behind two indirections every entry with a default has it in its place when the
call returns, whatever the entry held, and the document is rejected. -/
theorem C112_twice_overwritten {o : ObjC Constraint} (hw : o.Wf) {v : GoVal} {kvs : List (GoStr × GoVal)} (hv : Twice v (.map false kvs)) (hne : kvs ≠ [])
    (hk : CountOk o kvs.length) (hr : ∀ p c, (p, c) ∈ o.props → p ∉ o.required ∧ ∀ a, (sem ext env fuel c).dflt ≠ .abort a)
    (hpat : o.patterns = []) (hadd : o.additional = none) :
    ∃ kvs', (sem ext env fuel (.object o)).val σ v = (.err .addlNotAllowed, rewrap v (.map false kvs')) ∧
      ∀ p, (∀ c dv, (p, c) ∈ o.props → (sem ext env fuel c).dflt = .some dv → alookup p kvs' = keptOf dv) ∧
        ((∀ c, (p, c) ∈ o.props → (sem ext env fuel c).dflt = .none) → alookup p kvs' = alookup p kvs) := by
  have hp := shuffle_perm (o.map (denote ext (refSem ext env fuel))).props (σ.sub 0).key
  have hn : ((o.map (denote ext (refSem ext env fuel))).props.map (·.1)).Nodup := by simpa [ObjC.map, Function.comp_def] using hw.props
  obtain ⟨h1, kvs', h2, h3, h4⟩ := propLoop_twice (ext := ext) (o := o.map (denote ext (refSem ext env fuel))) (σ := σ.sub 1) _ 0 kvs (nameSet (kvs.map (·.1))) [] hv
    ((hp.map _).nodup_iff.2 hn)
  have hok := h1.2 fun pc hm => by
    obtain ⟨⟨p, c⟩, hm', rfl⟩ := List.mem_map.1 (hp.mem_iff.1 hm)
    exact ⟨(hr p c hm').1, (hr p c hm').2, fun _ _ h => by cases h⟩
  refine ⟨kvs', ?_, fun p => ⟨fun c dv hm hd => ?_, fun hnd => ?_⟩⟩
  · rw [sem, denote_object]
    unfold objectV
    have hnames : getPropNames (valueOf v).indirect = .ok (kvs.map (·.1)) := by cases hv <;> rfl
    rw [← map_countOk (denote ext (refSem ext env fuel)), countOk_iff] at hk
    simp only [hnames, List.length_map, hk.1, hk.2, if_false]
    rcases e : forLoop (propStep ext (o.map (denote ext (refSem ext env fuel))) (σ.sub 1)) 0
      (shuffle (σ.sub 0).key (o.map (denote ext (refSem ext env fuel))).props) ⟨v, nameSet (kvs.map (·.1)), []⟩ with ⟨r, st⟩
    rw [e] at hok h2
    simp only at hok h2
    subst hok h2
    have e1 : (o.map (denote ext (refSem ext env fuel))).patterns = [] := by simp [ObjC.map, hpat]
    have e2 : (o.map (denote ext (refSem ext env fuel))).additional = none := by simp [ObjC.map, hadd]
    have e3 : shuffle (σ.sub 2).key ([] : List (Nat × GoStr × Sem)) = [] := (shuffle_perm [] _).eq_nil
    have e4 : nameSet (kvs.map (·.1)) ≠ [] := fun h => hne (by simpa using nameSet_eq_nil.1 h)
    unfold objLoops
    simp only [e, seqSt, e1, e3, forLoop, addlPhase_blind (st := ⟨rewrap v (.map false kvs'), nameSet (kvs.map (·.1)), []⟩) (hv.rewrap _), e4, if_false, e2]
  · exact h4 hok p _ dv (hp.mem_iff.2 (List.mem_map.2 ⟨(p, c), hm, rfl⟩)) hd
  · rcases h3 p with h | ⟨c, dv, hm, hd, -⟩
    · exact h
    · obtain ⟨⟨q, c⟩, hm', he⟩ := List.mem_map.1 (hp.mem_iff.1 hm)
      cases he
      have := hnd c hm'
      rw [sem] at this
      rw [this] at hd
      cases hd

/-- `Validate(&v)` with `v` an `interface{}` that holds `{"a": 1, "b": "x"}` leaves `{"a": 1, "b": "d"}` there, in every order. -/
example : ∃ kvs', (sem0 (.object ((Object'.AddProp (b! "a") (.integer Number')).AddProp (b! "b") (.string (String'.Default (.str (b! "d"))))))).val σ
      (.ptr (some (.iface (.map false [(b! "a", .int .int 1), (b! "b", .str (b! "x"))])))) = (.err .addlNotAllowed, .ptr (some (.iface (.map false kvs')))) ∧
    alookup (b! "a") kvs' = some (.int .int 1) ∧ alookup (b! "b") kvs' = some (.str (b! "d")) := by
  obtain ⟨kvs', h1, h2⟩ := C112_twice_overwritten (ext := demoExt) (env := env0) (fuel := 0) (σ := σ)
    (o := (Object'.AddProp (b! "a") (.integer Number')).AddProp (b! "b") (.string (String'.Default (.str (b! "d"))))) ⟨by decide⟩
    (v := .ptr (some (.iface (.map false [(b! "a", .int .int 1), (b! "b", .str (b! "x"))])))) (.iface _) (by simp) (by unfold CountOk; decide)
    (fun p c h => by
      simp only [show ((Object'.AddProp (b! "a") (.integer Number')).AddProp (b! "b") (.string (String'.Default (.str (b! "d"))))).props =
        [(b! "a", Constraint.integer Number'), (b! "b", .string (String'.Default (.str (b! "d"))))] from rfl, List.mem_cons, List.not_mem_nil, or_false, Prod.mk.injEq] at h
      rcases h with ⟨rfl, rfl⟩ | ⟨rfl, rfl⟩ <;> exact ⟨by decide, nofun⟩) rfl rfl
  refine ⟨kvs', h1, ?_, (h2 (b! "b")).1 _ (.str (b! "d")) (by exact List.mem_cons_of_mem _ (List.mem_singleton.2 rfl)) rfl⟩
  rw [(h2 (b! "a")).2]
  · rfl
  · intro c h
    simp only [show ((Object'.AddProp (b! "a") (.integer Number')).AddProp (b! "b") (.string (String'.Default (.str (b! "d"))))).props =
      [(b! "a", Constraint.integer Number'), (b! "b", .string (String'.Default (.str (b! "d"))))] from rfl, List.mem_cons, List.not_mem_nil, or_false, Prod.mk.injEq] at h
    rcases h with ⟨-, rfl⟩ | ⟨h, -⟩
    · rfl
    · exact absurd h (by decide)

end Jsval
