import Verif.Lemmas.HooksFail
import Verif.Lemmas.Pipeline
import Verif.Props.Conforming
/-!
# Structs with property methods (C90, C91)

`Model/Hooks.lean` runs the validators on structs that have `GetPropNames`, `GetPropValue`, `SetPropValue`;
`Spec/Hooks.lean` says which map such a struct shows itself as.
-/
namespace Jsval
variable {hk : Hooks} {ext : Ext} {env : Env} {c : Constraint}

/-- C90: where no struct has property methods, this is the validation of `Model/Validate`. -/
theorem C90_conservative (ext : Ext) (env : Env) (fuel : Nat) (c : Constraint) : semH noHooks ext env fuel c = sem ext env fuel c := by
  simp only [semH, sem, refSemH_noHooks, denoteH_noHooks]

/-- C90: a value with property methods is judged as the value it shows itself as: each call on the one has a call on
the other with the same result, and the values they leave correspond. -/
theorem C90_shows (hf : hk.Faithful) (he : env.Every Constraint.Blind) (hc : c.Every Constraint.Blind) {v w : GoVal} (h : Looks hk v w)
    (σ : Sched) (r : Res) :
    (∀ v', ReturnsH hk ext env c σ v r v' → ∃ w', Returns ext env c σ w r w' ∧ Looks hk v' w') ∧
    (∀ w', Returns ext env c σ w r w' → ∃ v', ReturnsH hk ext env c σ v r v' ∧ Looks hk v' w') := by
  refine ⟨?_, ?_⟩
  · rintro v' ⟨hr, fuel, e⟩
    obtain ⟨h1, h2, -⟩ := (shadows_sem (ext := ext) hf he hc fuel).run σ v w h
    rw [e] at h1 h2
    exact ⟨((sem ext env fuel c).val σ w).2, ⟨hr, fuel, Prod.ext h1.symm rfl⟩, h2⟩
  · rintro w' ⟨hr, fuel, e⟩
    obtain ⟨h1, h2, -⟩ := (shadows_sem (ext := ext) hf he hc fuel).run σ v w h
    rw [e] at h1 h2
    exact ⟨((semH hk ext env fuel c).val σ v).2, ⟨hr, fuel, Prod.ext h1 rfl⟩, h2⟩

/-- C90: so the validator built from a conforming schema accepts such a value exactly if the document it shows itself as
is valid, and leaves it showing the same document. -/
theorem C90_valid {cls : DocClass} {lib : SchemaLib} {m : Nat} {resolve : Resolver} {s : Schema} (hf : hk.Faithful)
    (hroot : Reaches resolve s (b! "#") → ∀ s1, (resolve (b! "#")).target = .ok s1 → s1 = s) {bfuel : Nat} {σ : Sched} {b : Built}
    (h : Build lib m resolve bfuel σ s = .ok b) (hs : s.Conforms ext lib.formats cls)
    (hto : ∀ n s1, Reaches resolve s n → RefersTo resolve s n s1 → s1.Conforms ext lib.formats cls)
    (hg : Grounded resolve s) (hb : b.root.Every Constraint.Blind) (hbe : (b.env m).Every Constraint.Blind)
    {R : GoStr → GoVal → Prop} (hR : Meaning ext resolve s R) {v w : GoVal} (hl : Looks hk v w) (hw : Doc cls w) (τ : Sched) :
    (s.Valid ext R w ↔ ∃ v', ReturnsH hk ext (b.env m) b.root τ v .ok v' ∧ Looks hk v' w) ∧
    (¬ s.Valid ext R w ↔ ∃ e v', ReturnsH hk ext (b.env m) b.root τ v (.err e) v' ∧ Looks hk v' w) := by
  obtain ⟨h1, h2⟩ := (C63_exact hroot h hs hto hg).2 R hR w hw τ
  have same : ∀ {r w'}, Returns ext (b.env m) b.root τ w r w' → (r = .ok ∧ s.Valid ext R w) ∨ ((∃ e, r = .err e) ∧ ¬ s.Valid ext R w) := by
    rintro r w' ⟨hne, k, hk⟩
    rcases C63_sound hroot h hs hto hR hw k τ with ⟨h1, h2⟩ | ⟨⟨e, h1⟩, h2⟩ | h1 <;> rw [hk] at h1 <;> cases h1
    · exact Or.inl ⟨rfl, h2⟩
    · exact Or.inr ⟨⟨e, rfl⟩, h2⟩
    · exact absurd rfl hne
  refine ⟨⟨fun hv => (C90_shows hf hbe hb hl τ .ok).2 w (h1.1 hv), fun ⟨v', hr, _⟩ => ?_⟩,
    ⟨fun hv => ?_, fun ⟨e, v', hr, _⟩ => ?_⟩⟩
  · obtain ⟨w', hr', -⟩ := (C90_shows hf hbe hb hl τ .ok).1 v' hr
    rcases same hr' with ⟨-, h⟩ | ⟨⟨e, h⟩, -⟩
    · exact h
    · cases h
  · obtain ⟨e, he⟩ := h2.1 hv
    exact ⟨e, (C90_shows hf hbe hb hl τ (.err e)).2 w he⟩
  · obtain ⟨w', hr', -⟩ := (C90_shows hf hbe hb hl τ (.err e)).1 v' hr
    rcases same hr' with ⟨h, -⟩ | ⟨-, h⟩
    · cases h
    · exact h

/-! ## When the methods fail -/

/-- C91: an error returned by `GetPropNames` or `GetPropValue` goes nowhere: the validation is the one for a type
without the method. -/
theorem C91_getter_errors (hk : Hooks) (ext : Ext) (env : Env) (fuel : Nat) (c : Constraint) :
    semH hk ext env fuel c = semH hk.quiet ext env fuel c :=
  semH_agree (quiet_agree hk) env fuel c

/-- C91: a default that `SetPropValue` refuses is not passed over: a struct without the property is not accepted. Nor is it if the default is
nil, with which the method cannot be called. -/
theorem C91_set_refused {fuel : Nat} {o : ObjC Constraint} {p : GoStr} {d : Constraint} (hp : (p, d) ∈ o.props) {dv : GoVal}
    (hd : (semH hk ext env fuel d).dflt = .some dv) (hget : ∀ fs, hk.value fs p = some (some .nil))
    (hset : ∀ fs, ∃ f, hk.set fs = some f ∧ (dv = .nil ∨ (f p dv).1 ≠ none)) (σ : Sched) (fs : Fields) :
    ((semH hk ext env fuel (.object o)).val σ (.struct fs)).1 ≠ .ok ∧
    ((semH hk ext env fuel (.object o)).val σ (.ptr (some (.struct fs)))).1 ≠ .ok := by
  simp only [semH, denoteH_object]
  have hp' : (p, denoteH hk ext (refSemH hk ext env fuel) d) ∈ (o.map (denoteH hk ext (refSemH hk ext env fuel))).props :=
    List.mem_map.2 ⟨(p, d), hp, rfl⟩
  exact ⟨set_refused ⟨fs, Or.inl rfl⟩ hp' hd hget hset, set_refused ⟨fs, Or.inr rfl⟩ hp' hd hget hset⟩

/-- C91: and if there is no `SetPropValue`, a default never gets into a struct whose `GetPropValue` tells nil or hands out an unset Maybe by value: the
struct is not accepted. -/
theorem C91_set_missing {fuel : Nat} {o : ObjC Constraint} {p : GoStr} {d : Constraint} (hp : (p, d) ∈ o.props) {dv : GoVal}
    (hd : (semH hk ext env fuel d).dflt = .some dv) {x : GoVal} (hx : x = .nil ∨ ∃ q, x = .maybe false q) (hget : ∀ fs, hk.value fs p = some (some x))
    (hset : ∀ fs, hk.set fs = none) (σ : Sched) (fs : Fields) :
    ((semH hk ext env fuel (.object o)).val σ (.struct fs)).1 ≠ .ok ∧
    ((semH hk ext env fuel (.object o)).val σ (.ptr (some (.struct fs)))).1 ≠ .ok := by
  simp only [semH, denoteH_object]
  have hp' : (p, denoteH hk ext (refSemH hk ext env fuel) d) ∈ (o.map (denoteH hk ext (refSemH hk ext env fuel))).props :=
    List.mem_map.2 ⟨(p, d), hp, rfl⟩
  exact ⟨set_missing ⟨fs, Or.inl rfl⟩ hp' hd hx hget hset, set_missing ⟨fs, Or.inr rfl⟩ hp' hd hx hget hset⟩

/-- C91: nor is a struct accepted whose `GetPropNames` tells of a property for which `GetPropValue` tells nil. -/
theorem C91_listed_nil {fuel : Nat} {o : ObjC Constraint} {p : GoStr} {names : List GoStr} (hp : p ∈ names)
    (hget : ∀ fs, hk.value fs p = some (some .nil)) (σ : Sched) {fs : Fields} (hnames : hk.names fs = some (some names)) :
    ((semH hk ext env fuel (.object o)).val σ (.struct fs)).1 ≠ .ok ∧
    ((semH hk ext env fuel (.object o)).val σ (.ptr (some (.struct fs)))).1 ≠ .ok := by
  simp only [semH, denoteH_object]
  have h : ∀ v, (valueOf v).indirect = some (.struct fs) → getPropNamesH hk (valueOf v).indirect = .ok names := by
    intro v e
    rw [e]
    simp [getPropNamesH, RV.indirect, hnames]
  exact ⟨listed_nil ⟨fs, Or.inl rfl⟩ (h _ rfl) hp hget, listed_nil ⟨fs, Or.inr rfl⟩ (h _ rfl) hp hget⟩

/-! ## A type whose methods read and write a map in an unexported field -/

def bagField : Field := { name := b! "props", tag := [], exported := false, anonymous := false }
/-- `type Bag struct { props map[string]interface{} }` -/
def bag (kvs : List (GoStr × GoVal)) : GoVal := .struct [(bagField, .map false kvs)]
/-- `GetPropNames` lists the keys, `GetPropValue` and `SetPropValue` read and write the map. -/
def bagHooks : Hooks where
  names | [(_, .map false kvs)] => some (some (kvs.map (·.1))) | _ => none
  value | [(_, .map false kvs)] => fun p => some (some ((alookup p kvs).getD .nil)) | _ => fun _ => none
  set | [(f, .map false kvs)] => some fun p x => (none, [(f, .map false (ainsert p x kvs))]) | _ => none
  put fs p x := match fs with | [(f, .map false kvs)] => [(f, .map false (ainsert p x kvs))] | fs => fs

theorem bag_form {fs : Fields} {l : List GoStr} (h : bagHooks.names fs = some (some l)) : ∃ f kvs, fs = [(f, .map false kvs)] ∧ l = kvs.map (·.1) := by
  simp only [bagHooks] at h
  split at h
  · cases h; exact ⟨_, _, rfl, rfl⟩
  · cases h

theorem bag_looks {f : Field} {kvs kws : List (GoStr × GoVal)} : Looks bagHooks (.struct [(f, .map false kvs)]) (.map false kws) ↔
    Looks bagHooks (.map false kvs) (.map false kws) ∧ ∀ k x, alookup k kvs = some x → x ≠ .nil := by
  refine ⟨fun h => ?_, fun ⟨h, hn⟩ => ?_⟩
  · obtain ⟨-, h1, h2, h3, h4, -⟩ := h.struct_names
    have hkeys : kvs.map (·.1) = kws.map (·.1) := by simpa [bagHooks] using h2
    have hv : ∀ k x, alookup k kvs = some x → bagHooks.value [(f, .map false kvs)] k = some (some x) := by
      intro k x hx
      simp [bagHooks, hx]
    refine ⟨.map false kvs kws hkeys h1 fun k x y hx hy => ?_, fun k x hx e => ?_⟩
    · exact h4 k x y hy (hv k x (alookup_of_mem (hkeys ▸ h1) hx))
    · obtain ⟨x', e1, e2⟩ := h3 k (hkeys ▸ alookup_isSome.1 ⟨x, hx⟩)
      rw [hv k x hx] at e1
      cases e1
      exact e2 e
  · cases h with
    | scalar _ h => cases h
    | map _ _ _ h1 h2 h3 =>
      refine .struct _ kws h2 (by simp [bagHooks, h1]) (fun k hk => ?_) (fun k x w hw hx => ?_) fun k hk => ?_
      · obtain ⟨x, hx⟩ := alookup_isSome.2 (h1 ▸ hk)
        exact ⟨x, by simp [bagHooks, hx], hn k x hx⟩
      · obtain ⟨y, hy⟩ := alookup_isSome.2 (h1 ▸ List.mem_map.2 ⟨(k, w), hw, rfl⟩ : k ∈ kvs.map (·.1))
        have : x = y := by simpa [bagHooks, hy] using hx.symm
        subst this
        exact h3 k x w (alookup_mem hy) hw
      · rw [← h1, ← alookup_eq_none] at hk
        exact Or.inl (by simp [bagHooks, hk])

/-- Its methods are as C90 asks. -/
theorem bagHooks_faithful : bagHooks.Faithful := by
  refine ⟨fun fs kws p dv h hp hs hn => ?_, fun fs l r p w0 x w h hx hxw => ?_⟩
  · obtain ⟨f, kvs, rfl, hk⟩ := bag_form h.struct_names.2.2.1
    obtain ⟨h1, h2⟩ := bag_looks.1 h
    refine ⟨_, _, rfl, rfl, ?_⟩
    rw [bag_looks, ← ainsert_append hp]
    refine ⟨h1.put_map (.scalar dv hs), fun k y hy => ?_⟩
    rw [alookup_ainsert] at hy
    split at hy
    · cases hy; exact hn
    · exact h2 k y hy
  · obtain ⟨f, kvs, rfl, hk⟩ := bag_form h.struct_names.2.2.1
    obtain ⟨h1, h2⟩ := bag_looks.1 h
    have hnd := h1.nodup
    have : l ++ (p, w) :: r = ainsert p w (l ++ (p, w0) :: r) := by
      obtain ⟨l1, l2, e1, e2⟩ := ainsert_split w (alookup_of_mem hnd (show (p, w0) ∈ l ++ (p, w0) :: r by simp))
      rw [e2]
      have hl : p ∉ l.map (·.1) ∧ p ∉ l1.map (·.1) := by
        refine ⟨?_, ?_⟩
        · intro hm
          simp only [List.map_append, List.map_cons] at hnd
          exact (List.nodup_append.1 hnd).2.2 p hm p (by simp) rfl
        · intro hm
          rw [e1] at hnd
          simp only [List.map_append, List.map_cons] at hnd
          exact (List.nodup_append.1 hnd).2.2 p hm p (by simp) rfl
      have key : ∀ (l l1 r l2 : List (GoStr × GoVal)), p ∉ l.map (·.1) → p ∉ l1.map (·.1) → l ++ (p, w0) :: r = l1 ++ (p, w0) :: l2 → l = l1 ∧ r = l2 := by
        intro l
        induction l with
        | nil =>
          intro l1 r l2 _ h2 e
          cases l1 with
          | nil => simpa using e
          | cons a l1 =>
            simp only [List.nil_append, List.cons_append, List.cons.injEq] at e
            exact absurd (by simp [← e.1]) h2
        | cons a l ih =>
          intro l1 r l2 h1 h2 e
          cases l1 with
          | nil =>
            simp only [List.nil_append, List.cons_append, List.cons.injEq] at e
            exact absurd (by simp [e.1]) h1
          | cons b l1 =>
            simp only [List.cons_append, List.cons.injEq] at e
            simp only [List.map_cons, List.mem_cons, not_or] at h1 h2
            obtain ⟨e1, e2⟩ := ih l1 r l2 h1.2 h2.2 e.2
            exact ⟨by rw [e.1, e1], e2⟩
      obtain ⟨rfl, rfl⟩ := key l l1 r l2 hl.1 hl.2 e1
      rfl
    rw [this]
    show Looks bagHooks (.struct [(f, .map false (ainsert p x kvs))]) _
    rw [bag_looks]
    refine ⟨h1.put_map hxw, fun k y hy => ?_⟩
    rw [alookup_ainsert] at hy
    split at hy
    · cases hy; exact hx
    · exact h2 k y hy

/-- `{"properties": {"name": {"type": "string"}, "age": {"type": "integer", "default": 7}}, "required": ["name"],
"additionalProperties": false}` -/
def exPerson : Constraint := .object { Object' with
  props := [(b! "name", .string String'), (b! "age", .integer { Number' with dflt := some (fl 7) })], required := [b! "name"],
  additional := none }

theorem exPerson_blind : exPerson.Every Constraint.Blind := by
  refine every_of_children ⟨fun _ h => (by cases h), fun _ h => (by cases h), fun _ h => (by cases h)⟩ fun d hd => ?_
  cases hd with
  | object h =>
    cases h with
    | prop h =>
      simp only [Object', List.mem_cons, Prod.mk.injEq, List.not_mem_nil, or_false] at h
      rcases h with ⟨-, rfl⟩ | ⟨-, rfl⟩
      · refine every_of_children ⟨fun _ h => (by cases h), fun _ h => (by cases h), fun _ h => (by cases h)⟩ fun d hd => by cases hd
      · refine every_of_children ⟨fun _ h => (by cases h), fun _ h => (by cases h), fun _ h => ?_⟩ fun d hd => by cases hd
        cases h
        exact ⟨.float _ _, by simp⟩
    | pattern h => simp [Object'] at h
    | additional h => simp at h
    | dependency h => simp [Object', ObjC.GetSchemaDependency, alookup] at h

/-- A bag with a name shows itself as the map with the name, -/
theorem exBag_looks : Looks bagHooks (.ptr (some (bag [(b! "name", .str (b! "Ann"))]))) (.map false [(b! "name", .str (b! "Ann"))]) := by
  refine .ptr _ _ (bag_looks.2 ⟨.map false _ _ rfl (by simp) fun k x y hx hy => ?_, fun k x h => ?_⟩)
  · simp only [List.mem_singleton, Prod.mk.injEq] at hx hy
    rw [hx.2, hy.2]
    exact .scalar _ (.str _)
  · have := alookup_mem h
    simp only [List.mem_singleton, Prod.mk.injEq] at this
    rw [this.2]
    simp

/-- so C90 applies to it: whatever validating the map gives, validating the bag gives; -/
example (σ : Sched) (w' : GoVal) (h : Returns demoExt env0 exPerson σ (.map false [(b! "name", .str (b! "Ann"))]) .ok w') :
    ∃ v', ReturnsH bagHooks demoExt env0 exPerson σ (.ptr (some (bag [(b! "name", .str (b! "Ann"))]))) .ok v' ∧ Looks bagHooks v' w' :=
  (C90_shows bagHooks_faithful (fun _ _ _ h => by cases h) exPerson_blind exBag_looks σ .ok).2 w' h

/-- it is accepted and the age filled in, -/
example : (semH bagHooks demoExt env0 0 exPerson).val sched0 (.ptr (some (bag [(b! "name", .str (b! "Ann"))]))) =
    (.ok, .ptr (some (bag [(b! "name", .str (b! "Ann")), (b! "age", fl 7)]))) := by rfl

/-- while without the methods the struct has no properties at all; -/
example : ((sem demoExt env0 0 exPerson).val sched0 (.ptr (some (bag [(b! "name", .str (b! "Ann"))])))).1 =
    .err (.required (b! "name")) := by rfl

/-- and a bag with a further property is rejected. -/
example : ((semH bagHooks demoExt env0 0 exPerson).val sched0 (bag [(b! "name", .str (b! "Ann")), (b! "size", .bool true)])).1 =
    .err .addlNotAllowed := by rfl

theorem exListBuilt_blind : exListBuilt.root.Every Constraint.Blind ∧ (exListBuilt.env 7).Every Constraint.Blind := by
  have hleaf : ∀ m n, (Constraint.ref m n).Every Constraint.Blind := fun m n =>
    every_of_children ⟨fun _ h => (by cases h), fun _ h => (by cases h), fun _ h => (by cases h)⟩ fun d hd => by cases hd
  have hempty : Constraint.empty.Every Constraint.Blind :=
    every_of_children ⟨fun _ h => (by cases h), fun _ h => (by cases h), fun _ h => (by cases h)⟩ fun d hd => by cases hd
  have hroot : exListBuilt.root.Every Constraint.Blind := by
    refine every_of_children ⟨fun _ h => (by cases h), fun _ h => (by cases h), fun _ h => (by cases h)⟩ fun d hd => ?_
    cases hd with
    | object h =>
      cases h with
      | prop h =>
        simp only [Object', ObjC.AddProp, ObjC.AdditionalProperties, ainsert] at h
        rw [if_neg (by decide)] at h
        simp only [List.mem_cons, Prod.mk.injEq, List.not_mem_nil, or_false] at h
        rcases h with ⟨-, rfl⟩ | ⟨-, rfl⟩ <;> exact hleaf _ _
      | pattern h => simp [Object', ObjC.AddProp, ObjC.AdditionalProperties] at h
      | additional h =>
        simp only [Object', ObjC.AddProp, ObjC.AdditionalProperties, Option.some.injEq] at h
        subst h
        exact hempty
      | dependency h => simp [Object', ObjC.AddProp, ObjC.AdditionalProperties, ObjC.GetSchemaDependency, alookup] at h
  refine ⟨hroot, fun m n c h => ?_⟩
  simp only [Built.env] at h
  split at h
  · have hm := alookup_mem h
    simp only [exListBuilt, List.mem_cons, Prod.mk.injEq, List.not_mem_nil, or_false] at hm
    rcases hm with ⟨-, rfl⟩ | ⟨-, rfl⟩ | ⟨-, rfl⟩
    · exact hroot
    · refine every_of_children ⟨fun a h => (by cases h; rfl), fun _ h => (by cases h), fun _ h => (by cases h)⟩ fun d hd => ?_
      cases hd with
      | array h =>
        cases h with
        | items h =>
          simp only [ArrC.Items, Option.some.injEq] at h
          subst h
          exact hleaf _ _
        | positional h => simp [Array', ArrC.Items] at h
        | additional h =>
          simp only [Array', ArrC.Items] at h
          cases h <;> exact hempty
    · refine every_of_children ⟨fun _ h => (by cases h), fun _ h => (by cases h), fun _ h => (by cases h)⟩ fun d hd => ?_
      cases hd with
      | any h =>
        simp only [List.mem_cons, List.not_mem_nil, or_false] at h
        rcases h with rfl | rfl
        · exact every_of_children ⟨fun _ h => (by cases h), fun _ h => (by cases h), fun _ h => (by cases h)⟩ fun d hd => by cases hd
        · exact hleaf _ _
  · cases h

/-- All hypotheses of `C90_valid` hold for bags against the recursive list schema of C63; -/
example (R : GoStr → GoVal → Prop) (hR : Meaning ext exListResolve exListSchema R) (v w : GoVal) (hl : Looks bagHooks v w) (hw : Doc anyDoc w) (τ : Sched) :
    exListSchema.Valid ext R w ↔ ∃ v', ReturnsH bagHooks ext (exListBuilt.env 7) exListBuilt.root τ v .ok v' ∧ Looks bagHooks v' w :=
  (C90_valid (lib := lib0) (m := 7) (σ := sched0) (bfuel := 10) bagHooks_faithful (fun _ s1 h => by cases h) rfl
    (exListSchema_conforms ext _ _) (fun _ _ _ h => exListResolve_conforms ext _ _ (by decide) h) exList_grounded
    exListBuilt_blind.1 exListBuilt_blind.2 hR hl hw τ).1

/-- a list of two bags is accepted, and one with `{"val": true}` is not. -/
example : (fun v => (match ((semH bagHooks demoExt (exListBuilt.env 7) 9 exListBuilt.root).val sched0 (bag [(b! "next", bag [(b! "val", v)])])).1 with
    | .ok => true | _ => false)) <$> [.slice false [fl 3], .bool true] = [true, false] := by decide +kernel

/-! Methods that fail. -/

/-- `SetPropValue` of this type always returns an error. -/
def readOnlyBag : Hooks := { bagHooks with
  value := fun fs p => if p = b! "age" then some (some .nil) else bagHooks.value fs p
  set := fun fs => some fun p _ => (some (.noField p), fs) }

/-- `C91_set_refused` applies to it, -/
example (σ : Sched) (fs : Fields) : ((semH readOnlyBag demoExt env0 0 exPerson).val σ (.struct fs)).1 ≠ .ok :=
  (C91_set_refused (p := b! "age") (d := .integer { Number' with dflt := some (fl 7) }) (by simp) (dv := fl 7) rfl (fun fs => by simp [readOnlyBag])
    (fun fs => ⟨_, rfl, Or.inr (by simp)⟩) σ fs).1

/-- also to nil as a default, -/
example (σ : Sched) (fs : Fields) :
    ((semH readOnlyBag demoExt env0 0 (.object { Object' with props := [(b! "age", .string { String' with dflt := some .nil })] })).val σ (.struct fs)).1 ≠ .ok :=
  (C91_set_refused (p := b! "age") (d := .string { String' with dflt := some .nil }) (by simp) (dv := .nil) rfl (fun fs => by simp [readOnlyBag])
    (fun fs => ⟨_, rfl, Or.inl rfl⟩) σ fs).1

/-- and the error is reported with the name of the property. -/
example : ((semH readOnlyBag demoExt env0 0 exPerson).val sched0 (bag [(b! "name", .str (b! "Ann"))])).1 =
    .err (.setDefault (b! "age") (.noField (b! "age"))) := by rfl

/-- This type lists a name whose value is nil. -/
def hollowBag : Hooks := { bagHooks with
  names := fun _ => some (some [b! "name", b! "size"])
  value := fun _ p => if p = b! "name" then some (some (.str (b! "Ann"))) else some (some .nil) }

example (σ : Sched) (fs : Fields) : ((semH hollowBag demoExt env0 0 exPerson).val σ (.struct fs)).1 ≠ .ok :=
  (C91_listed_nil (p := b! "size") (by simp) (fun fs => by simp [hollowBag]) σ (fs := fs) rfl).1

/-- Where further properties are allowed the value is asked for and the call panics. -/
example : ((semH hollowBag demoExt env0 0 (.object { Object' with additional := some .empty })).val sched0 (bag [])).1 = .abort .panic := by rfl

/-- `GetPropNames` and `GetPropValue` of this type return errors; there is no `SetPropValue`. -/
def brokenBag : Hooks := { noHooks with names := fun _ => some none, value := fun _ _ => some none }

/-- The exported fields count after all. -/
example : ((semH brokenBag demoExt env0 0 exPerson).val sched0
      (.struct [({ name := b! "Name", tag := b! "name" }, .str (b! "Ann")), ({ name := b! "Age", tag := b! "age" }, .int .int 3)])).1 = .ok ∧
    ((semH brokenBag demoExt env0 0 exPerson).val sched0 (.struct [({ name := b! "Name", tag := b! "name" }, .bool true)])).1 ≠ .ok := by
  refine ⟨rfl, ?_⟩
  intro h
  cases h

/-- a type with `GetPropValue` alone, which always hands out an unset MaybeString -/
def exReadOnly : Hooks := { noHooks with value := fun _ _ => some (some (.maybe false (.str []))) }

/-- a default for it panics -/
example : ((semH exReadOnly demoExt env0 1 (.object (Object'.AddProp (b! "a") (.string (String'.Default (.str (b! "x"))))))).val sched0 (.ptr (some (.struct [])))).1 =
    .abort .panic := rfl
example : (∀ fs, exReadOnly.value fs (b! "a") = some (some (.maybe false (.str [])))) ∧ (∀ fs, exReadOnly.set fs = none) := ⟨fun _ => rfl, fun _ => rfl⟩

end Jsval
