import Verif.Lemmas.ShowsTree
import Verif.Props.ConformingDefaults
import Verif.Props.Structs
/-!
# Nested structs are validated as the documents they stand for (C94)

`Spec/Shows.lean` says which document a struct stands for, and what is asked of the constraints.
-/
namespace Jsval
variable {ext : Ext} {env : Env} {c : Constraint} {v w : GoVal}

/-- C94: a value with structs in it is validated as the document it stands for: what one call may return, for some
iteration order, the other may return, and what is left behind stands for what is left behind. -/
theorem C94_same (he : env.Every Constraint.Fair) (hc : c.Every Constraint.Fair) (h : StandsFor ext env (c.Alongside env) v w) :
    (∀ σ r v', Returns ext env c σ v r v' → ∃ σ' w', Returns ext env c σ' w r w' ∧ StandsFor ext env (c.Alongside env) v' w') ∧
    ∀ σ r w', Returns ext env c σ w r w' → ∃ σ' v', Returns ext env c σ' v r v' ∧ StandsFor ext env (c.Alongside env) v' w' := by
  constructor
  · rintro σ r v' ⟨hr, k, e⟩
    obtain ⟨σ', h1, h2, -⟩ := (even_sem (d := true) he hc k) v w h σ
    simp only [sel, if_true] at h1 h2
    rw [e] at h1 h2
    exact ⟨σ', ((sem ext env k c).val σ' w).2, ⟨hr, k, Prod.ext h1.symm rfl⟩, h2⟩
  · rintro σ r w' ⟨hr, k, e⟩
    obtain ⟨σ', h1, h2, -⟩ := (even_sem (d := false) he hc k) v w h σ
    simp only [sel, Bool.false_eq_true, if_false] at h1 h2
    rw [e] at h1 h2
    exact ⟨σ', ((sem ext env k c).val σ' v).2, ⟨hr, k, Prod.ext h1 rfl⟩, h2⟩

/-- C94: so one is always accepted exactly if the other is. -/
theorem C94_accepts (he : env.Every Constraint.Fair) (hc : c.Every Constraint.Fair) (h : StandsFor ext env (c.Alongside env) v w) (fuel : Nat) :
    (sem ext env fuel c).Accepts v ↔ (sem ext env fuel c).Accepts w := by
  constructor
  · intro ha σ
    obtain ⟨σ', h1, -, -⟩ := (even_sem (d := false) he hc fuel) v w h σ
    simp only [sel, Bool.false_eq_true, if_false] at h1
    rw [← h1]; exact ha σ'
  · intro ha σ
    obtain ⟨σ', h1, -, -⟩ := (even_sem (d := true) he hc fuel) v w h σ
    simp only [sel, if_true] at h1
    rw [h1]; exact ha σ'

/-- The amount of fuel does not depend on the iteration order. -/
theorem defaults_fuel {cls : DocClass} {lib : SchemaLib} {m : Nat} {resolve : Resolver} {s : Schema}
    (hroot : Reaches resolve s (b! "#") → ∀ s1, (resolve (b! "#")).target = .ok s1 → s1 = s) {bfuel : Nat} {σ : Sched} {b : Built}
    (h : Build lib m resolve bfuel σ s = .ok b) (hs : s.plain.Conforms ext lib.formats cls)
    (hto : ∀ n s1, Reaches resolve s n → RefersTo resolve s n s1 → s1.plain.Conforms ext lib.formats cls)
    (hg : Grounded resolve s) (hd : s.Discreet lib.formats resolve) {R : GoStr → GoVal → Prop} (hR : Meaning ext resolve s R) (hw : Doc cls w) :
    ∃ k, ∀ τ, (((sem ext (b.env m) k b.root).val τ w).1 = .ok ∧ s.Valid ext R w) ∨
      ((∃ e, ((sem ext (b.env m) k b.root).val τ w).1 = .err e) ∧ ¬ s.Valid ext R w) := by
  obtain ⟨hu1, hu2⟩ := built_unseen hroot h hd
  have hb : Build lib m resolve.plain bfuel σ s.plain = .ok b.plain := by rw [buildTop_plain, h]; rfl
  have hb' : BuildWithCtx lib m resolve.plain bfuel σ s.plain = .ok b.plain := by
    revert hb; cases s.plain <;> exact id
  have hroot' : Reaches resolve.plain s.plain (b! "#") → ∀ s1, (resolve.plain (b! "#")).target = .ok s1 → s1 = s.plain := by
    intro h1 s1 h2
    rw [show resolve.plain (b! "#") = (resolve (b! "#")).plain from rfl, target_plain] at h2
    cases ht : (resolve (b! "#")).target with
    | error e => rw [ht] at h2; cases h2
    | ok s2 =>
      rw [ht] at h2
      cases h2
      rw [hroot (reaches_plain.1 h1) s2 ht]
  have hto' : ∀ n s1, Reaches resolve.plain s.plain n → RefersTo resolve.plain s.plain n s1 → s1.Conforms ext lib.formats cls := by
    intro n t h1 h2
    obtain ⟨s1, h3, rfl⟩ := refersTo_plain.1 h2
    exact hto n s1 (reaches_plain.1 h1) h3
  obtain ⟨hd1, hd2⟩ := built_noDflt hroot' hb' hs hto'
  obtain ⟨k, hk⟩ := C49_guarded (ext := ext) (guarded_of_grounded hroot' hb' (grounded_plain hg)) hd2 hd1 w
  refine ⟨k, fun τ => ?_⟩
  rw [C88_verdict hu1 hu2 hw.json k]
  obtain ⟨r, v', h1, h2⟩ := hk τ
  have h3 := C63_sound hroot' hb hs hto' (meaning_plain.2 hR) hw k τ
  rw [valid_plain] at h3
  rw [built_env_plain] at h2 h3
  rcases h3 with ⟨h3, h4⟩ | ⟨⟨e, h3⟩, h4⟩ | h3
  · exact Or.inl ⟨congrArg Prod.fst h3, h4⟩
  · exact Or.inr ⟨⟨e, congrArg Prod.fst h3⟩, h4⟩
  · rw [h3] at h2
    cases h2
    exact absurd rfl h1

/-- C94: the validator built from a conforming schema, possibly with defaults that nothing looks at, accepts a value with structs in it
exactly if the document it stands for is valid, whatever the iteration order. -/
theorem C94_valid {cls : DocClass} {lib : SchemaLib} {m : Nat} {resolve : Resolver} {s : Schema}
    (hroot : Reaches resolve s (b! "#") → ∀ s1, (resolve (b! "#")).target = .ok s1 → s1 = s) {bfuel : Nat} {σ : Sched} {b : Built}
    (h : Build lib m resolve bfuel σ s = .ok b) (hs : s.plain.Conforms ext lib.formats cls)
    (hto : ∀ n s1, Reaches resolve s n → RefersTo resolve s n s1 → s1.plain.Conforms ext lib.formats cls)
    (hg : Grounded resolve s) (hd : s.Discreet lib.formats resolve)
    (hbe : (b.env m).Every Constraint.Fair) (hb : b.root.Every Constraint.Fair)
    {R : GoStr → GoVal → Prop} (hR : Meaning ext resolve s R) (hl : StandsFor ext (b.env m) (b.root.Alongside (b.env m)) v w) (hw : Doc cls w) (τ : Sched) :
    (s.Valid ext R w ↔ ∃ v', Returns ext (b.env m) b.root τ v .ok v') ∧
    (¬ s.Valid ext R w ↔ ∃ e v', Returns ext (b.env m) b.root τ v (.err e) v') := by
  have hall := (C63_defaults hroot h hs hto hg hd).2 R hR w hw
  have ofOk : ∀ v', Returns ext (b.env m) b.root τ v .ok v' → s.Valid ext R w := fun v' hr => by
    obtain ⟨σ', w', hr', -⟩ := (C94_same hbe hb hl).1 τ _ v' hr
    exact (hall σ').1.2 ⟨w', hr'⟩
  have ofErr : ∀ e v', Returns ext (b.env m) b.root τ v (.err e) v' → ¬ s.Valid ext R w := fun e v' hr => by
    obtain ⟨σ', w', hr', -⟩ := (C94_same hbe hb hl).1 τ _ v' hr
    exact (hall σ').2.2 ⟨e, w', hr'⟩
  obtain ⟨k, hk⟩ := defaults_fuel hroot h hs hto hg hd hR hw
  obtain ⟨σ', h1, -, -⟩ := (even_sem (d := true) hbe hb k) v w hl τ
  simp only [sel, if_true] at h1
  rcases hk σ' with ⟨h2, hv⟩ | ⟨⟨e, h2⟩, hv⟩ <;> rw [h2] at h1
  · exact ⟨⟨fun _ => ⟨_, by simp, k, Prod.ext h1 rfl⟩, fun _ => hv⟩, ⟨fun hn => absurd hv hn, fun ⟨e, v', h3⟩ => ofErr e v' h3⟩⟩
  · exact ⟨⟨fun hn => absurd hn hv, fun ⟨v', h3⟩ => ofOk v' h3⟩, ⟨fun _ => ⟨e, _, by simp, k, Prod.ext h1 rfl⟩, fun _ => hv⟩⟩

/-! Nodes with colors, as in `ConformingDefaults`, given as structs. -/

/-- The constraint for ports. -/
def exPortO : ObjC Constraint :=
  (Object'.AddProp (b! "n") (.integer (Number'.Default (.float .f64 F64.zero)))).AdditionalProperties (some .empty)
/-- The constraint for lists of ports. -/
def exPortsA : ArrC Constraint := Array'.Items (some (.object exPortO))
/-- The constraint for nodes. -/
def exNodesO : ObjC Constraint := (((Object'.AddProp (b! "color") (.ref 7 (b! "c"))).AddProp (b! "next") (.ref 7 (b! "#"))).AddProp (b! "port")
  (.any [.array exPortsA, .string String'])).AdditionalProperties (some .empty)

/-- What is built from the schema for nodes, written out. -/
theorem exNodesBuilt_eq : exNodesBuilt = ⟨.object exNodesO, [(b! "#", .object exNodesO), (b! "c", .string (String'.Default (.str (b! "red"))))]⟩ := by
  rfl

theorem exNodes_props {p : GoStr} {d : Constraint} (h : (p, d) ∈ exNodesO.props) :
    (p = b! "color" ∧ d = .ref 7 (b! "c")) ∨ (p = b! "next" ∧ d = .ref 7 (b! "#")) ∨ (p = b! "port" ∧ d = .any [.array exPortsA, .string String']) := by
  replace h : (_, d) ∈ [(b! "color", .ref 7 (b! "c")), (b! "next", .ref 7 (b! "#")), (b! "port", .any [.array exPortsA, .string String'])] := h
  simpa only [List.mem_cons, Prod.mk.injEq, List.not_mem_nil, or_false] using h

theorem exPort_props {p : GoStr} {d : Constraint} (h : (p, d) ∈ exPortO.props) :
    p = b! "n" ∧ d = .integer (Number'.Default (.float .f64 F64.zero)) := by
  replace h : (_, d) ∈ [(b! "n", .integer (Number'.Default (.float .f64 F64.zero)))] := h
  simpa only [List.mem_cons, Prod.mk.injEq, List.not_mem_nil, or_false] using h

theorem exNodesBuilt_fair : exNodesBuilt.root.Every Constraint.Fair ∧ (exNodesBuilt.env 7).Every Constraint.Fair := by
  have other : ∀ c : Constraint, (∀ vals, c ≠ .enum vals) → c.ownDefault = none → (∀ d, c.Child d → d.Every Constraint.Fair) →
      c.Every Constraint.Fair := fun c hl hd hc => every_of_children ⟨fun vals h => absurd h (hl vals), fun dv h => by rw [hd] at h; cases h⟩ hc
  have href : ∀ n, (Constraint.ref 7 n).Every Constraint.Fair := fun n => other _ (fun _ h => by cases h) rfl fun d hd => by cases hd
  have hempty : Constraint.empty.Every Constraint.Fair := other _ (fun _ h => by cases h) rfl fun d hd => by cases hd
  have hport : (Constraint.array exPortsA).Every Constraint.Fair := by
    refine other _ (fun _ h => by cases h) rfl fun d hd => ?_
    cases hd with
    | array h =>
      cases h with
      | items h =>
        cases h
        refine other _ (fun _ h => by cases h) rfl fun d hd => ?_
        cases hd with
        | object h =>
          cases h with
          | prop h =>
            obtain ⟨-, rfl⟩ := exPort_props h
            exact every_of_children ⟨fun _ h => (by cases h), fun dv h => (by cases h; exact ⟨by constructor, by simp⟩)⟩ fun d hd => by cases hd
          | pattern h => cases h
          | additional h => cases h; exact hempty
          | dependency h => cases h
      | positional h => cases h
      | additional h => cases h; exact hempty
  have hroot : (Constraint.object exNodesO).Every Constraint.Fair := by
    refine other _ (fun _ h => by cases h) rfl fun d hd => ?_
    cases hd with
    | object h =>
      cases h with
      | prop h =>
        rcases exNodes_props h with ⟨-, rfl⟩ | ⟨-, rfl⟩ | ⟨-, rfl⟩
        · exact href _
        · exact href _
        · refine other _ (fun _ h => by cases h) rfl fun d hd => ?_
          cases hd with
          | any h =>
            simp only [List.mem_cons, List.not_mem_nil, or_false] at h
            rcases h with rfl | rfl
            · exact hport
            · exact other _ (fun _ h => by cases h) rfl fun d hd => by cases hd
      | pattern h => cases h
      | additional h => cases h; exact hempty
      | dependency h => cases h
  rw [exNodesBuilt_eq] at *
  refine ⟨hroot, fun m n c h => ?_⟩
  simp only [Built.env] at h
  split at h
  · have hm := alookup_mem h
    simp only [List.mem_cons, Prod.mk.injEq, List.not_mem_nil, or_false] at hm
    rcases hm with ⟨-, rfl⟩ | ⟨-, rfl⟩
    · exact hroot
    · exact every_of_children ⟨fun _ h => (by cases h), fun dv h => (by cases h; exact ⟨by constructor, by simp⟩)⟩ fun d hd => by cases hd
  · cases h

/-- What nodes are validated by. -/
abbrev exNodesRole : Role := exNodesBuilt.root.Alongside (exNodesBuilt.env 7)

/-- All hypotheses of `C94_valid` hold for structs against the schema for nodes. -/
theorem exNodes_structs (R : GoStr → GoVal → Prop) (hR : Meaning ext exNodesResolve exNodes R) (v w : GoVal)
    (hl : StandsFor ext (exNodesBuilt.env 7) exNodesRole v w) (hw : Doc anyDoc w) (τ : Sched) :
    exNodes.Valid ext R w ↔ ∃ v', Returns ext (exNodesBuilt.env 7) exNodesBuilt.root τ v .ok v' :=
  (C94_valid (lib := lib0) (m := 7) (σ := sched0) (bfuel := 10) (fun _ s1 h => by cases h) (b := exNodesBuilt) rfl
    (exNodes_conforms ext _ _ (by decide)) (fun _ s1 _ h => by
      rcases exNodesResolve_refersTo h with ⟨-, rfl⟩ | ⟨-, rfl⟩
      · exact exNodes_conforms ext _ _ (by decide)
      · exact exColor_conforms ext _ _) exNodes_grounded (exNodes_discreet _ (by decide)) exNodesBuilt_fair.2 exNodesBuilt_fair.1
      hR hl hw τ).1

/-! Which constraints validate the parts of a node. -/

/-- Of all object constraints, only this one. -/
def Role.Only (K : Role) (o : ObjC Constraint) : Prop := ∀ o', K (.object o') → o' = o

theorem exNodes_object {e : Constraint} (h : (Constraint.object exNodesO).Alongside (exNodesBuilt.env 7) e) : e = .object exNodesO := by
  cases h with
  | refl => rfl
  | same h _ => cases h with | dependency h => cases h

theorem exNodes_only : exNodesRole.Only exNodesO := fun o h => by
  simpa using exNodes_object h

theorem exNodes_next {K : Role} (hK : K.Only exNodesO) : (K.prop ext (exNodesBuilt.env 7) (b! "next")).Only exNodesO := by
  rintro o' ⟨o, d, h1, h2, h3⟩
  cases hK o h1
  cases h2 with
  | declared h =>
    obtain ⟨h, -⟩ | ⟨-, rfl⟩ | ⟨h, -⟩ := exNodes_props h
    · exact absurd h (by decide)
    · cases h3 with
      | same h _ => cases h
      | ref h h' =>
        cases h
        simpa using exNodes_object h'
    · exact absurd h (by decide)
  | pattern _ h => cases h
  | additional hn _ => exact absurd ⟨_, List.mem_cons_of_mem _ List.mem_cons_self⟩ hn

theorem exNodes_ports {K : Role} (hK : K.Only exNodesO) {e : Constraint} (h : K.prop ext (exNodesBuilt.env 7) (b! "port") e) :
    e = .any [.array exPortsA, .string String'] ∨ e = .array exPortsA ∨ e = .string String' := by
  obtain ⟨o, d, h1, h2, h3⟩ := h
  cases hK o h1
  cases h2 with
  | declared h =>
    obtain ⟨h, -⟩ | ⟨h, -⟩ | ⟨-, rfl⟩ := exNodes_props h
    · exact absurd h (by decide)
    · exact absurd h (by decide)
    · cases h3 with
      | refl => exact Or.inl rfl
      | same h h' =>
        cases h with
        | any h =>
          simp only [List.mem_cons, List.not_mem_nil, or_false] at h
          rcases h with rfl | rfl
          · cases h' with
            | refl => exact Or.inr (Or.inl rfl)
            | same h => cases h
          · cases h' with
            | refl => exact Or.inr (Or.inr rfl)
            | same h => cases h
  | pattern _ h => cases h
  | additional hn _ => exact absurd ⟨_, List.mem_cons_of_mem _ (List.mem_cons_of_mem _ List.mem_cons_self)⟩ hn

theorem exNodes_port {K : Role} (hK : K.Only exNodesO) (i : Nat) :
    ((K.prop ext (exNodesBuilt.env 7) (b! "port")).item (exNodesBuilt.env 7) i).Only exPortO := by
  rintro o ⟨a, d, h1, h2, h3⟩
  rcases exNodes_ports hK h1 with h | h | h <;> cases h
  cases h2 with
  | items h =>
    cases h
    cases h3 with
    | refl => rfl
    | same h _ => cases h with | dependency h => cases h
  | positional h => cases h
  | additional h => cases h

theorem exPort_n {K : Role} (hK : K.Only exPortO) {e : Constraint} (h : K.prop ext (exNodesBuilt.env 7) (b! "n") e) :
    e = .integer (Number'.Default (.float .f64 F64.zero)) := by
  obtain ⟨o, d, h1, h2, h3⟩ := h
  cases hK o h1
  cases h2 with
  | declared h =>
    obtain ⟨-, rfl⟩ := exPort_props h
    cases h3 with
    | refl => rfl
    | same h _ => cases h
  | pattern _ h => cases h
  | additional hn _ => exact absurd ⟨_, List.mem_cons_self⟩ hn

theorem exPort_ints {K : Role} (hK : K.Only exPortO) : (K.prop ext (exNodesBuilt.env 7) (b! "n")).TakesInts :=
  ⟨fun n h => (by cases exPort_n hK h), fun vals h => (by cases exPort_n hK h)⟩

/-- `Paint{Color: color}, x` for
`type Node struct { Paint; Rest interface{} `json:"k"` }` with
`type Paint struct { Color MaybeString `json:"color"` }` -/
def exNodeFs (color : Option GoStr) (k : GoStr) (x : GoVal) : List (Field × GoVal) :=
  [({ name := b! "Paint", anonymous := true }, .struct [(fld (b! "Color") (b! "color"), .maybe color.isSome (.str (color.getD [])))]),
    (fld (b! "Rest") k, x)]
/-- `&Node{Paint: Paint{Color: color}, Rest: x}` -/
def exNode' (color : Option GoStr) (k : GoStr) (x : GoVal) : GoVal := .ptr (some (.struct (exNodeFs color k x)))
/-- Its fields, the embedded ones included. -/
theorem exNode_unembed (color : Option GoStr) (k : GoStr) (x : GoVal) : unembed (exNodeFs color k x) =
    [(fld (b! "Color") (b! "color"), .maybe color.isSome (.str (color.getD []))), (fld (b! "Rest") k, x)] := by
  rfl
/-- What it stands for. -/
def exNodeDoc (color : Option GoStr) (k : GoStr) (y : GoVal) : GoVal := .map false ((k, y) :: color.toList.map fun s => (b! "color", .str s))

theorem exNode'_stands {K : Role} (hK : K.Only exNodesO) (color : Option GoStr) {k : GoStr} (hk : k = b! "next" ∨ k = b! "port") {x y : GoVal}
    (hm : ¬ HoldsMaybe x) (h : StandsFor ext (exNodesBuilt.env 7) (K.prop ext (exNodesBuilt.env 7) k) x y) :
    StandsFor ext (exNodesBuilt.env 7) K (exNode' color k x) (exNodeDoc color k y) := by
  have hn : jsonNameSpec (fld (b! "Rest") k) = some k := by rcases hk with rfl | rfl <;> decide
  have hc : jsonNameSpec (fld (b! "Color") (b! "color")) = some (b! "color") := by decide
  have hcont : fieldContent x = some x := by
    cases x with
    | maybe b p => exact absurd (.val b p) hm
    | ptr o =>
      cases o with
      | none => rfl
      | some z => cases z with
        | maybe b p => exact absurd (.ptr b p) hm
        | _ => rfl
    | _ => rfl
  refine .ptr K _ _ ⟨⟨?_, ?_, ?_⟩, ?_, ?_, ?_⟩ ?_ ?_
  · intro p hp ha
    replace hp : p ∈ [_, _, _] := hp
    simp only [List.mem_cons, List.not_mem_nil, or_false] at hp
    rcases hp with rfl | rfl | rfl
    · exact Or.inl ⟨_, rfl⟩
    all_goals cases ha
  · show [b! "Paint", b! "Color", b! "Rest"].Nodup
    decide
  · rw [exNode_unembed]
    simp only [List.filterMap_cons, hn, hc, List.filterMap_nil]
    rcases hk with rfl | rfl <;> decide
  · cases color <;> rcases hk with rfl | rfl <;> simp [List.Nodup, List.pairwise_cons]
  · intro j
    rw [exNode_unembed]
    simp only [List.map_cons, List.mem_cons, List.not_mem_nil, or_false]
    constructor
    · rintro (rfl | hj)
      · exact ⟨_, _, _, Or.inr rfl, hn, hcont⟩
      · cases color with
        | none => cases hj
        | some s =>
          simp at hj
          subst hj
          exact ⟨_, _, _, Or.inl rfl, hc, rfl⟩
    · rintro ⟨f, z, u, h1 | h1, h2, h3⟩ <;> cases h1
      · cases color with
        | none => cases h3
        | some s =>
          right
          rw [hc] at h2
          cases h2
          simp
      · left
        rw [hn] at h2
        exact (Option.some.inj h2).symm
  · intro f z j h1 h2 h3
    rw [exNode_unembed] at h1
    simp only [List.mem_cons, List.not_mem_nil, or_false] at h1
    rcases h1 with h1 | h1 <;> cases h1
    · rw [hc] at h2
      cases h2
      refine ⟨fun o ho => Or.inl ?_, fun u hu => ?_⟩
      · cases hK o ho
        exact ⟨_, List.mem_cons_self⟩
      · cases color with
        | none => cases hu
        | some s =>
          cases hu
          exact ⟨_, .same _ (.scalar (by constructor)), by simp [MaybeVal.toGo]⟩
    · exact absurd h3 hm
  · intro f z j u h1 h2 h3 h4
    rw [exNode_unembed] at h1
    simp only [List.mem_cons, List.not_mem_nil, or_false] at h1
    rcases h1 with h1 | h1 <;> cases h1
    · exact absurd (.val _ _) h3
    · rw [hn] at h2
      cases h2
      simp only [List.mem_cons, Prod.mk.injEq, true_and] at h4
      rcases h4 with rfl | h4
      · exact h
      · cases color with
        | none => cases h4
        | some s =>
          simp only [Option.toList_some, List.map_cons, List.map_nil, List.mem_singleton, Prod.mk.injEq] at h4
          rcases hk with rfl | rfl <;> exact absurd h4.1 (by decide)
  · rintro p dv ⟨o, d, ho, hp, -, fuel, hd⟩ hpn
    cases hK o ho
    obtain ⟨rfl, rfl⟩ | ⟨rfl, rfl⟩ | ⟨rfl, rfl⟩ := exNodes_props hp
    · cases fuel with
      | zero => cases hd
      | succ fuel =>
        cases hd
        cases color with
        | none => exact ⟨_, _, List.mem_cons_self, hc, .val _ _ _ (.conv _ _ _ (.str _)) (.same _ (.scalar (by constructor)))⟩
        | some s => exact absurd (by simp) hpn
    · cases fuel <;> cases hd
    · cases hd

/-- `&Port{}` for `type Port struct { N MaybeInt `json:"n"` }`, with the number if there is one. -/
def exPort' (n : Option Int) : GoVal := .ptr (some (.struct [(fld (b! "N") (b! "n"), .maybe n.isSome (.int (n.getD 0)))]))
/-- What it stands for. -/
def exPortDoc (n : Option Int) : GoVal := .map false (n.toList.map fun n => (b! "n", .float .f64 (F64.ofInt n)))

theorem exPort_stands {K : Role} (hK : K.Only exPortO) (n : Option Int) : StandsFor ext (exNodesBuilt.env 7) K (exPort' n) (exPortDoc n) := by
  have hn : jsonNameSpec (fld (b! "N") (b! "n")) = some (b! "n") := by decide
  have hu : ∀ x, unembed [(fld (b! "N") (b! "n"), x)] = [(fld (b! "N") (b! "n"), x)] := fun _ => rfl
  refine .ptr K _ _ ⟨⟨?_, ?_, ?_⟩, ?_, ?_, ?_⟩ ?_ ?_
  · intro p hp ha
    replace hp : p ∈ [_] := hp
    simp only [List.mem_cons, List.not_mem_nil, or_false] at hp
    subst hp
    cases ha
  · show [b! "N"].Nodup
    decide
  · rw [hu]
    simp only [List.filterMap_cons, hn, List.filterMap_nil]
    decide
  · cases n <;> simp [List.Nodup, List.pairwise_cons]
  · intro j
    rw [hu]
    simp only [List.mem_cons, List.not_mem_nil, or_false]
    cases n with
    | none => exact ⟨fun h => (by cases h), fun ⟨_, _, _, h1, _, h3⟩ => (by cases h1; cases h3)⟩
    | some n =>
      constructor
      · intro h
        simp at h
        subst h
        exact ⟨_, _, _, rfl, hn, rfl⟩
      · rintro ⟨_, _, _, h1, h2, h3⟩
        cases h1
        rw [hn] at h2
        cases h2
        simp
  · intro f z j h1 h2 h3
    rw [hu] at h1
    simp only [List.mem_cons, List.not_mem_nil, or_false] at h1
    cases h1
    rw [hn] at h2
    cases h2
    refine ⟨fun o ho => Or.inl ?_, fun u hu => ?_⟩
    · cases hK o ho
      exact ⟨_, List.mem_cons_self⟩
    · cases n with
      | none => cases hu
      | some n =>
        cases hu
        exact ⟨_, .int _ _ (exPort_ints hK), by simp⟩
  · intro f z j u h1 h2 h3 h4
    rw [hu] at h1
    simp only [List.mem_cons, List.not_mem_nil, or_false] at h1
    cases h1
    exact absurd (.val _ _) h3
  · rintro p dv ⟨o, d, ho, hp, -, fuel, hd⟩ hpn
    cases hK o ho
    obtain ⟨rfl, rfl⟩ := exPort_props hp
    cases hd
    cases n with
    | none => exact ⟨_, _, List.mem_cons_self, hn, .val _ _ _ (.conv _ _ _ (.intOfFloat F64.zero 0 ⟨_, _, rfl, by decide +kernel, by decide +kernel, by decide, by decide⟩ (by decide) (by decide)))
        ((show F64.zero = F64.ofInt 0 by decide +kernel) ▸ .int _ _ (exPort_ints hK))⟩
    | some n => exact absurd (by simp) hpn

/-- A node with a node inside stands for `{"next": {"port": "http", "color": "blue"}}`, though `color` is a field of the embedded `Paint`, -/
example : StandsFor ext (exNodesBuilt.env 7) exNodesRole (exNode' none (b! "next") (exNode' (some (b! "blue")) (b! "port") (.str (b! "http"))))
    (exNodeDoc none (b! "next") (exNodeDoc (some (b! "blue")) (b! "port") (.str (b! "http")))) :=
  exNode'_stands exNodes_only _ (Or.inl rfl) (fun h => by cases h)
    (exNode'_stands (exNodes_next exNodes_only) _ (Or.inr rfl) (fun h => by cases h) (.leaf _ _ _ (.same _ (.scalar (by constructor)))))

/-- and it is accepted: the color of the outer node is filled in. -/
example : (sem demoExt (exNodesBuilt.env 7) 9 exNodesBuilt.root).val sched0
    (exNode' none (b! "next") (exNode' (some (b! "blue")) (b! "port") (.str (b! "http")))) =
      (.ok, exNode' (some (b! "red")) (b! "next") (exNode' (some (b! "blue")) (b! "port") (.str (b! "http")))) := by rfl

/-- A port that is a number is not. -/
example : (match ((sem demoExt (exNodesBuilt.env 7) 9 exNodesBuilt.root).val sched0
    (exNode' none (b! "next") (exNode' (some (b! "blue")) (b! "port") (fl 8)))).1 with | .err _ => true | _ => false) = true := by decide +kernel

/-- A node with a list of ports, one a map with a Go integer, the others structs, stands for `{"port": [{"n": 7}, {}, {"n": 9}]}`: the ports
need a field for the number that may be missing, nodes do not. -/
theorem exPorts_stands : StandsFor ext (exNodesBuilt.env 7) exNodesRole
    (exNode' none (b! "port") (.slice false [.map false [(b! "n", .int .int 7)], exPort' none, exPort' (some 9)]))
    (exNodeDoc none (b! "port") (.slice false [exPortDoc (some 7), exPortDoc none, exPortDoc (some 9)])) := by
  refine exNode'_stands exNodes_only _ (Or.inr rfl) (fun h => by cases h) (lined_slice (.cons ?_ (.cons ?_ (.cons ?_ (.nil _)))) fun a ha hu => ?_)
  · refine .map _ _ _ _ (by decide) (by decide) (fun k => Iff.rfl) fun k x y hx hy => ?_
    simp only [List.mem_singleton, Prod.mk.injEq, Option.toList_some, List.map_cons, List.map_nil] at hx hy
    obtain ⟨rfl, rfl⟩ := hx
    rw [hy.2]
    exact .leaf _ _ _ (.int _ _ (exPort_ints (exNodes_port exNodes_only _)))
  · exact exPort_stands (exNodes_port exNodes_only _) none
  · exact exPort_stands (exNodes_port exNodes_only _) (some 9)
  · obtain h | h | h := exNodes_ports exNodes_only ha
    · cases h
    · cases h
      cases hu
    · cases h

/-- It is accepted, and the missing number is filled in. -/
example : (match (sem demoExt (exNodesBuilt.env 7) 9 exNodesBuilt.root).val sched0
    (exNode' none (b! "port") (.slice false [.map false [(b! "n", .int .int 7)], exPort' none, exPort' (some 9)])) with
  | (.ok, .ptr (some (.struct [_, (_, .slice _ [_, .ptr (some (.struct [(_, .maybe true (.int n))])), _])]))) => n == 0
  | _ => false) = true := by decide +kernel

/-- Where numbers with a fraction are asked for, integers are told from the numbers they stand for. -/
example (σ : Sched) : (∃ e, ((sem ext env 0 (.number Number')).val σ (.int .int 7)).1 = .err e) ∧
    ((sem ext env 0 (.number Number')).val σ (.float .f64 (F64.ofInt 7))).1 = .ok := ⟨⟨.notFloat, rfl⟩, rfl⟩

end Jsval
