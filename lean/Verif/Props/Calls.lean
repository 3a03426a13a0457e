import Verif.Lemmas.Calls
import Verif.Props.Scalars
import Verif.Props.Combinators
import Verif.Props.Arrays
/-!
# C99, C100: chains of configuration calls
-/
namespace Jsval
variable (ext : Ext) (ρ : RefSem) (σ : Sched)

/-! ## C99 -/

/-- C99: a string constraint accepts exactly the strings that obey the last call of each kind; its default is the one of the
last call. -/
theorem C99_string (calls : List StrCall) (v : GoVal) :
    ((denote ext ρ (StringCalls calls)).AcceptsBy σ v ↔ ∃ s, Target v (.str s) ∧ StrCallsOk ext calls s) ∧
    (denote ext ρ (StringCalls calls)).dflt = .ofOption (Latest StrCall.default? calls) := by
  unfold StringCalls
  rw [strCalls_eq]
  refine ⟨?_, by simp [denote]⟩
  rw [C10_string_exact]
  refine exists_congr fun s => and_congr_right fun _ => ?_
  have hempty : FormatOk ext [] s := by
    refine ⟨?_, ?_, ?_, ?_, ?_, ?_⟩ <;> intro h <;> exact absurd h (by decide)
  constructor
  · rintro ⟨h1, h2, h3, h4, h5⟩
    refine ⟨fun n hn h0 => ?_, fun n hn => ?_, h4, fun f hf => ?_, h5⟩
    · simp only [hn, Option.getD_some] at h1; exact h1 h0
    · simp only [hn, Option.getD_some] at h2
      by_cases h0 : 0 ≤ n
      · exact h2 h0
      · omega
    · simp only [hf, Option.getD_some] at h3; exact h3
  · rintro ⟨h1, h2, h3, h4, h5⟩
    refine ⟨?_, ?_, ?_, h3, h5⟩
    · cases hm : Latest StrCall.maxLength? calls with
      | none => intro h; simp at h
      | some n => exact h1 n hm
    · cases hm : Latest StrCall.minLength? calls with
      | none => intro _; simp
      | some n => exact fun _ => h2 n hm
    · cases hm : Latest StrCall.format? calls with
      | none => exact hempty
      | some n => exact h4 n hm

example : StrCallsOk demoExt [.maxLength 1, .minLength 2, .maxLength 3] (b! "abc") :=
  ⟨(by intro n h _; cases h; decide), (by intro n h; cases h; decide), (by intro n h; cases h), (by intro n h; cases h), (by intro n h; cases h)⟩
example : ((denote demoExt (refSem demoExt env0 0) (StringCalls [.maxLength 1, .minLength 2, .maxLength 3])).val sched0 (.str (b! "abc"))).1 = .ok := by
  rfl
example : ((denote demoExt (refSem demoExt env0 0) (StringCalls [.maxLength 3, .minLength 2, .maxLength 1])).val sched0 (.str (b! "abc"))).1 ≠ .ok := by
  intro h; cases h

theorem numOk_calls (calls : List NumCall) (f : F64) : NumOk (calls.foldl NumCall.on Number') f ↔ NumCallsOk calls f := by
  rw [numCalls_eq]
  constructor
  · rintro ⟨h1, h2, h3, h4, h5, h6⟩
    exact ⟨h1, fun m hm he => h2 m hm (by simp only [he, Option.getD_some]), h3,
      fun m hm he => h4 m hm (by simp only [he, Option.getD_some]), h5, h6⟩
  · rintro ⟨h1, h2, h3, h4, h5, h6⟩
    refine ⟨h1, fun m hm he => h2 m hm ?_, h3, fun m hm he => h4 m hm ?_, h5, h6⟩
    · cases hx : Latest NumCall.exclMin? calls with
      | none => simp only [hx] at he; cases he
      | some b => simp only [hx, Option.getD_some] at he; rw [he]
    · cases hx : Latest NumCall.exclMax? calls with
      | none => simp only [hx] at he; cases he
      | some b => simp only [hx, Option.getD_some] at he; rw [he]

/-- C99: a number constraint accepts exactly the floats that obey the last call of each kind; its default is the one of the
last call. -/
theorem C99_number (calls : List NumCall) (v : GoVal) :
    ((denote ext ρ (NumberCalls calls)).AcceptsBy σ v ↔ ∃ k f, Target v (.float k f) ∧ NumCallsOk calls f) ∧
    (denote ext ρ (NumberCalls calls)).dflt = .ofOption (Latest NumCall.default? calls) := by
  unfold NumberCalls
  rw [numChain_number]
  refine ⟨?_, ?_⟩
  · refine (C16_number_exact ext ρ σ _ v).trans ?_
    simp only [numOk_calls]
  · show Dflt.ofOption (calls.foldl NumCall.on Number').dflt = _
    rw [numCalls_eq]

/-- an exclusive minimum that is switched off again, and a maximum given twice -/
example : ((denote demoExt (refSem demoExt env0 0) (NumberCalls [.exclMin true, .maximum (F64.exactInt 2), .minimum (F64.exactInt 1), .exclMin false,
    .maximum (F64.exactInt 7)])).val sched0 (fl 1)).1 = .ok := by decide +kernel
example : NumCallsOk [.maximum (F64.exactInt 2), .exclMax true, .maximum .nan] (F64.exactInt 5) :=
  ⟨(by intro m h; cases h), (by intro m h; cases h), (by rintro m h ⟨x, y, h1, _, _⟩; cases h; cases h1),
    (by rintro m h _ ⟨x, _, h1⟩; cases h; cases h1), (by intro m h; cases h), (by intro m h; cases h)⟩

/-- C99: an integer constraint configured without `Enum` and `MultipleOf` accepts exactly the whole numbers that obey the last
call of each kind; its default is the one of the last call. -/
theorem C99_integer (calls : List NumCall) (h : ∀ k ∈ calls, (∀ l, k ≠ .enum l) ∧ ∀ m, k ≠ .multipleOf m) (v : GoVal) :
    ((denote ext ρ (IntegerCalls calls)).AcceptsBy σ v ↔ ∃ x f, Target v x ∧ IntView x f ∧ NumCallsOk calls f) ∧
    (denote ext ρ (IntegerCalls calls)).dflt = .ofOption (Latest NumCall.default? calls) := by
  have ha : (calls.all fun k => k.enum?.isNone && k.multipleOf?.isNone) = true := by
    rw [List.all_eq_true]
    intro k hk
    obtain ⟨h1, h2⟩ := h k hk
    cases k with
    | enum l => exact absurd rfl (h1 l)
    | multipleOf m => exact absurd rfl (h2 m)
    | _ => rfl
  unfold IntegerCalls
  rw [numChain_integer, if_pos ha]
  refine ⟨?_, ?_⟩
  · refine (C18_integer_exact ext ρ σ _ v).trans ?_
    simp only [numOk_calls]
  · show Dflt.ofOption (calls.foldl NumCall.on Number').dflt = _
    rw [numCalls_eq]

example : ((denote demoExt (refSem demoExt env0 0) (IntegerCalls [.maximum (F64.exactInt 2), .default (.int .int 4), .maximum (F64.exactInt 7)])).val sched0
    (.int .int 5)).1 = .ok := by decide +kernel

/-- C99: an array constraint depends on nothing but the last call of each kind. -/
theorem C99_array {calls calls' : List ArrCall} (h : SameArr calls calls') : ArrayCalls calls = ArrayCalls calls' := by
  unfold ArrayCalls
  rw [arrCalls_eq, arrCalls_eq, h.additional, h.items, h.min, h.max, h.positional, h.unique]

example : SameArr [.positionalItems [.null], .uniqueItems true, .maxItems 3, .positionalItems [.empty]]
    [.maxItems 9, .positionalItems [.empty], .maxItems 3, .uniqueItems true] := ⟨rfl, rfl, rfl, rfl, rfl, rfl⟩

theorem listOk_calls (calls : List ArrCall) (xs : List GoVal) :
    LenOk (calls.foldl ArrCall.on Array') xs ∧ UniqOk ext (calls.foldl ArrCall.on Array') xs ↔ ListCallsOk ext calls xs := by
  rw [arrCalls_eq]
  unfold LenOk UniqOk
  constructor
  · rintro ⟨⟨h1, h2⟩, h3⟩
    refine ⟨fun n hn => ?_, fun n hn h0 => ?_, fun hn => h3 ?_⟩
    · simp only [hn, Option.getD_some] at h1
      by_cases h0 : 0 ≤ n
      · exact h1 h0
      · omega
    · simp only [hn, Option.getD_some] at h2; exact h2 h0
    · simp only [hn, Option.getD_some]
  · rintro ⟨h1, h2, h3⟩
    refine ⟨⟨?_, ?_⟩, ?_⟩
    · cases hm : Latest ArrCall.minItems? calls with
      | none => intro h; simp at h
      | some n => exact fun _ => h1 n hm
    · cases hm : Latest ArrCall.maxItems? calls with
      | none => intro h; simp at h
      | some n => exact h2 n hm
    · cases hm : Latest ArrCall.uniqueItems? calls with
      | none => intro h; simp at h
      | some b => intro h; simp only [Option.getD_some] at h; exact h3 (by rw [hm, h])

/-- C99: if the last call of `Items` was given a constraint, a list is accepted exactly if it obeys the last call of each kind and
all its elements are accepted. -/
theorem C99_array_items (calls : List ArrCall) (c : Constraint) (h : Latest ArrCall.items? calls = some (some c)) (n : Bool) (xs : List GoVal) :
    (denote ext ρ (ArrayCalls calls)).AcceptsBy σ (.slice n xs) ↔ ListCallsOk ext calls xs ∧
      ∀ (j : Nat) (x : GoVal), xs[j]? = some x → (denote ext ρ c).AcceptsBy ((σ.sub 0).sub j) x := by
  rw [← listOk_calls, and_assoc]
  exact C23_items_exact ext ρ σ _ c n xs (by rw [arrCalls_eq]; simp only [h, Option.getD_some])

/-- C99: if there was no call of `Items`, and none of `AdditionalItems`, a list is accepted exactly if it obeys the last call of
each kind and its elements obey the constraints at their positions. -/
theorem C99_array_positional (calls : List ArrCall) (cs : List Constraint) (h : Latest ArrCall.positionalItems? calls = some cs)
    (hi : ∀ c, .items c ∉ calls) (ha : ∀ c, .additionalItems c ∉ calls) (n : Bool) (xs : List GoVal) :
    (denote ext ρ (ArrayCalls calls)).AcceptsBy σ (.slice n xs) ↔ ListCallsOk ext calls xs ∧
      ∀ (j : Nat) (c : Constraint) (x : GoVal), cs[j]? = some c → xs[j]? = some x → (denote ext ρ c).AcceptsBy ((σ.sub 1).sub j) x := by
  have hi' : Latest ArrCall.items? calls = none := by
    rw [latest_none_iff]
    intro k hk
    cases k with
    | items c => exact absurd hk (hi c)
    | _ => rfl
  have ha' : Latest ArrCall.additionalItems? calls = none := by
    rw [latest_none_iff]
    intro k hk
    cases k with
    | additionalItems c => exact absurd hk (ha c)
    | _ => rfl
  rw [← listOk_calls, and_assoc]
  refine (C24_positional_exact ext ρ σ _ n xs (by rw [arrCalls_eq]; simp only [hi', Option.getD_none])).trans ?_
  refine and_congr_right fun _ => and_congr_right fun _ => ?_
  rw [arrCalls_eq]
  simp only [h, ha', Option.getD_some, Option.getD_none]
  refine ⟨fun h => h.1, fun h => ⟨h, fun _ _ => ⟨.empty, rfl, fun j x _ _ => ?_⟩⟩⟩
  unfold Sem.AcceptsBy
  simp [denote]

example : ((denote demoExt (refSem demoExt env0 0) (ArrayCalls [.maxItems 1, .positionalItems [.null, .null], .maxItems 2,
    .positionalItems [.string String']])).val sched0 (.slice false [.str (b! "x"), .nil])).1 = .ok := by rfl
example : ((denote demoExt (refSem demoExt env0 0) (ArrayCalls [.items none, .maxItems 1, .items (some .null)])).val sched0
    (.slice false [.nil])).1 = .ok := by rfl

/-- C99: the results of an object constraint depend on nothing but the last call of each kind, for every property and regular
expression, the names required by any call, and the names each property depends on by all calls together. Two chains that agree
on these give the same results, up to the order in which Go's maps are visited. -/
theorem C99_object {calls calls' : List ObjCall} (h : SameObj calls calls') :
    ∃ τ, ∀ v, (denote ext ρ (ObjectCalls calls')).val τ v = (denote ext ρ (ObjectCalls calls)).val σ v := by
  unfold ObjectCalls
  rw [denote_object, denote_object]
  exact objectOf_same h σ

/-- properties, a pattern, what is required and dependencies in another order; some of it given twice -/
def callsDemo : List ObjCall := [.addProp (b! "a") .null, .required [b! "a"], .addProp (b! "b") .empty,
  .propDependency (b! "b") [b! "a"], .addProp (b! "a") (.string String'), .minProperties 1, .patternProperties 0 (b! "^x") .empty]
def callsDemo' : List ObjCall := [.minProperties 7, .minProperties 1, .patternProperties 0 (b! "^x") .empty, .addProp (b! "b") .empty,
  .propDependency (b! "b") [], .addProp (b! "a") (.string String'), .required [], .required [b! "a", b! "a"], .propDependency (b! "b") [b! "a"]]

example : SameObj callsDemo callsDemo' := by
  refine ⟨rfl, rfl, rfl, fun n => ?_, fun i => ?_, fun p => ?_, fun n => ?_, fun n => ?_⟩
  · by_cases h1 : b! "a" = n
    · subst h1; rfl
    · by_cases h2 : b! "b" = n
      · subst h2; rfl
      · simp [Latest, callsDemo, callsDemo', List.filterMap, ObjCall.prop?, h1, h2]
  · by_cases h1 : 0 = i
    · subst h1; rfl
    · simp [Latest, callsDemo, callsDemo', List.filterMap, ObjCall.pattern?, h1]
  · simp [callsDemo, callsDemo']
  · by_cases h2 : b! "b" = n
    · subst h2; rfl
    · simp [callsDemo, callsDemo', List.filterMap, ObjCall.propDep?, h2]
  · rfl
example : ((denote demoExt (refSem demoExt env0 0) (ObjectCalls callsDemo)).val sched0
    (.map false [(b! "b", .nil), (b! "a", .str (b! "x"))])).1 = .ok := by decide +kernel

/-- C99: `IsPropRequired` answers whether some call of `Required` listed the name, `GetPropDependencies` gives what the calls
of `PropDependency` listed, in order, and `GetSchemaDependency` what the last call of `SchemaDependency` was given. -/
theorem C99_answers (calls : List ObjCall) (n : GoStr) :
    ((ObjectOf calls).IsPropRequired n = true ↔ ∃ l, .required l ∈ calls ∧ n ∈ l) ∧
    (ObjectOf calls).GetPropDependencies n = (calls.filterMap (ObjCall.propDep? n)).flatten ∧
    (ObjectOf calls).GetSchemaDependency n = Latest (ObjCall.schemaDep? n) calls := by
  obtain ⟨-, -, -, -, -, -, -, h8, h9, h10⟩ := objCalls_eq calls
  refine ⟨?_, h9 n, h10 n⟩
  unfold ObjC.IsPropRequired
  rw [decide_eq_true_iff, h8]

example : (ObjectOf callsDemo').GetPropDependencies (b! "b") = [b! "a"] := rfl
example : (ObjectOf callsDemo').IsPropRequired (b! "b") = false := rfl

/-- C99: children of combinators are asked in the order in which they were added. -/
theorem C99_combinators (cs : List Constraint) :
    cs.foldl AnyAdd (.any []) = .any cs ∧ cs.foldl AllAdd (.all []) = .all cs ∧ cs.foldl OneOfAdd (.oneOf []) = .oneOf cs := by
  have h : ∀ l : List Constraint, cs.foldl AnyAdd (.any l) = .any (l ++ cs) ∧ cs.foldl AllAdd (.all l) = .all (l ++ cs) ∧
      cs.foldl OneOfAdd (.oneOf l) = .oneOf (l ++ cs) := by
    induction cs with
    | nil => intro l; simp
    | cons c cs ih =>
      intro l
      obtain ⟨a, b, d⟩ := ih (l ++ [c])
      refine ⟨?_, ?_, ?_⟩ <;> rw [List.foldl_cons]
      · show cs.foldl AnyAdd (.any (l ++ [c])) = _; rw [a]; simp
      · show cs.foldl AllAdd (.all (l ++ [c])) = _; rw [b]; simp
      · show cs.foldl OneOfAdd (.oneOf (l ++ [c])) = _; rw [d]; simp
  simpa using h []

example : [Constraint.null, .empty].foldl AllAdd (.all []) = .all [.null, .empty] := (C99_combinators _).2.1

/-! ## C100 -/

/-- C100: not every chain of calls on `Integer()` gives an integer constraint: `Integer().MultipleOf(0.5)` accepts 1.5 and
rejects the Go integer 2. -/
theorem C100_refuted : ∃ calls : List NumCall,
    (∃ f, ¬ F64.Whole f ∧ (denote ext ρ (IntegerCalls calls)).AcceptsBy σ (.float .f64 f)) ∧
    ∃ n : ℤ, NumCallsOk calls (F64.ofInt n) ∧ ¬ (denote ext ρ (IntegerCalls calls)).AcceptsBy σ (.int .int n) := by
  refine ⟨[.multipleOf (.fin false (F64.unit / 2))], ⟨.fin false (3 * (F64.unit / 2)), ?_, ?_⟩, 2, ?_, ?_⟩
  · rintro ⟨k, hk⟩
    have h2 : F64.unit = 2 * (F64.unit / 2) := by decide +kernel
    have hp : 0 < F64.unit / 2 := by decide +kernel
    rw [h2] at hk
    simp only [Nat.mul_div_cancel_left _ (show 0 < 2 by decide)] at hk
    have : 3 = k * 2 := Nat.eq_of_mul_eq_mul_right hp (by rw [hk]; ring)
    omega
  · refine (C16_number_exact ext ρ σ _ _).2 ⟨_, _, .self _ (by simp) (by simp),
      (numOk_calls [.multipleOf (.fin false (F64.unit / 2))] _).2 ?_⟩
    refine ⟨(by intro m h; cases h), (by intro m h; cases h), (by intro m h; cases h), (by intro m h; cases h), ?_, (by intro m h; cases h)⟩
    intro m h _
    cases h
    exact ⟨3, by simp⟩
  · refine ⟨(by intro m h; cases h), (by intro m h; cases h), (by intro m h; cases h), (by intro m h; cases h), ?_, (by intro m h; cases h)⟩
    intro m h _
    cases h
    show F64.MultOf (F64.ofInt 2) _
    rw [show F64.ofInt 2 = .fin false (4 * (F64.unit / 2)) by decide +kernel]
    exact ⟨4, by simp⟩
  · intro h
    obtain ⟨k, f, ht, -⟩ := (C16_number_exact ext ρ σ _ _).1 h
    cases ht

/-- C100, what does hold: without `Enum` and `MultipleOf` the result is an integer constraint (C99); with one of them, anywhere
in the chain, it accepts exactly the floats that obey the last call of each kind, whole or not, and no Go integer. -/
theorem C100_exact (calls : List NumCall) (h : ∃ k ∈ calls, (∃ l, k = .enum l) ∨ ∃ m, k = .multipleOf m) (v : GoVal) :
    ((denote ext ρ (IntegerCalls calls)).AcceptsBy σ v ↔ ∃ k f, Target v (.float k f) ∧ NumCallsOk calls f) ∧
    ∀ k n, ¬ (denote ext ρ (IntegerCalls calls)).AcceptsBy σ (.int k n) := by
  have ha : ¬ (calls.all fun k => k.enum?.isNone && k.multipleOf?.isNone) = true := by
    rw [List.all_eq_true]
    intro hn
    obtain ⟨k, hk, ⟨l, rfl⟩ | ⟨m, rfl⟩⟩ := h
    · have := hn _ hk; cases this
    · have := hn _ hk; cases this
  unfold IntegerCalls
  rw [numChain_integer, if_neg ha]
  have hx : ∀ v, (denote ext ρ (NumChain.number (calls.foldl NumCall.on Number')).get).AcceptsBy σ v ↔
      ∃ k f, Target v (.float k f) ∧ NumCallsOk calls f := fun v => by
    refine (C16_number_exact ext ρ σ _ v).trans ?_
    simp only [numOk_calls]
  refine ⟨hx v, fun k n hh => ?_⟩
  obtain ⟨k, f, ht, -⟩ := (hx _).1 hh
  cases ht

example : ((denote demoExt (refSem demoExt env0 0) (IntegerCalls [.enum [fl 1, fl 2]])).val sched0 (.int .int 1)).1 ≠ .ok := by decide +kernel
example : ((denote demoExt (refSem demoExt env0 0) (IntegerCalls [.enum [fl 1, fl 2], .maximum (F64.exactInt 1)])).val sched0 (fl 1)).1 = .ok := by
  decide +kernel

end Jsval
