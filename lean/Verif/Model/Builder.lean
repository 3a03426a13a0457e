import Mathlib.Data.List.Sort
import Verif.Model.Schema
import Verif.Model.Validate
/-!
# The builder (builder/*.go)

`buildNode` is `buildFromSchema` for one schema whose sub-schemas are given by the actions that build them; `build`
ties the knot over the schema tree. `compileRef`/`compileLoop` are `compileReferences` and its callers' loops.
-/
namespace Jsval

/-- Errors returned by the builder; one constructor per place. -/
inductive BuildErr where
  | nilSchema                 -- builder/builder.go:47, 70 "nil schema"
  | unknownType (t : PrimType) -- builder/builder.go:275
  | notForString              -- builder/string.go:13
  | notForNumber              -- builder/number.go:49
  | notForInteger             -- builder/number.go:13
  | resolve                   -- builder/builder.go:124, the error of `r.Resolve`
  | extract                   -- builder/builder.go:138, the error of `s1.Extract`

/-- How `buildFromSchema` can stop without a result. -/
inductive BuildStop where
  | err (e : BuildErr)
  | panic

/-- How `Build` can stop without a result; `diverge` is running out of fuel in `compileReferences`. -/
inductive CompileStop where
  | stop (e : BuildStop)
  | diverge

/-- Building code: may stop, and updates `ctx.R`, the set of reference names used (builder/builder.go:25). -/
abbrev BM := StateT (List GoStr) (Except BuildStop)

/-- `buildFromSchema(ctx, s)` for some `s`; the schedule decides map iteration orders. -/
abbrev Act := Sched → BM Constraint

variable {S : Type}

/-! ## Guessing types -/

/-- `reflect.ValueOf(v).Kind()` is `Map` or `Struct` (builder/builder.go:372). -/
def objectKind : GoVal → Bool
  | .map _ _ | .mapOther _ _ | .struct _ | .maybe _ _ | .time _ => true
  | _ => false

/-- … is `Slice` (builder/builder.go:412). -/
def sliceKind : GoVal → Bool
  | .slice _ _ => true
  | _ => false

/-- … is `String` (builder/builder.go:441). -/
def stringKind : GoVal → Bool
  | .str _ => true
  | _ => false

/-- … is `Bool` (builder/builder.go:500). -/
def boolKind : GoVal → Bool
  | .bool _ => true
  | _ => false

/-- `schemaLooksLikeObject` (builder/builder.go:340-378). -/
def schemaLooksLikeObject (s : SchemaF S) : Bool :=
  if 0 < s.properties.length then true
  else match s.additionalProps with
    | .nil => true
    | .schema _ => true
    | .allow =>
      if s.minProps.isSome then true
      else if s.maxProps.isSome then true
      else if 0 < s.required.length then true
      else if 0 < s.patternProps.length then true
      else s.enum.any objectKind

/-- `s.Items != nil` -/
def ItemSpec.isSome : ItemSpec S → Bool
  | .nil => false
  | _ => true

/-- `schemaLooksLikeArray` (builder/builder.go:380-418). -/
def schemaLooksLikeArray (s : SchemaF S) : Bool :=
  if s.items.isSome then true
  else match s.additionalItems with
    | .nil => true
    | .schema _ => true
    | .allow =>
      if s.items.isSome then true
      else if s.minItems.isSome then true
      else if s.maxItems.isSome then true
      else if s.uniqueItems.isSome then true
      else s.enum.any sliceKind

/-- `schemaLooksLikeString` (builder/builder.go:420-447). -/
def schemaLooksLikeString (lib : SchemaLib) (s : SchemaF S) : Bool :=
  if s.minLength.isSome then true
  else if s.maxLength.isSome then true
  else if s.pattern.isSome then true
  else if s.format ∈ lib.formats then true
  else s.enum.any stringKind

/-- `isInteger` (builder/builder.go:449). -/
def isInteger (f : F64) : Bool := F64.eq f.floor f

/-- The loop over the enum at builder/builder.go:483-491. -/
def numberFromEnum : List GoVal → Option PrimType
  | [] => none
  | .int _ _ :: _ => some .integer
  | .float _ _ :: _ => some .number
  | _ :: l => numberFromEnum l

/-- `schemaLooksLikeNumber` (builder/builder.go:453-494); `none` is `false`. -/
def schemaLooksLikeNumber (s : SchemaF S) : Option PrimType :=
  match s.multipleOf with
  | some f => some (if isInteger f then .integer else .number)
  | none =>
    match s.minimum with
    | some f => some (if isInteger f then .integer else .number)
    | none =>
      match s.maximum with
      | some f => some (if isInteger f then .integer else .number)
      | none =>
        if s.exclMin.isSome then some .number
        else if s.exclMax.isSome then some .number
        else numberFromEnum s.enum

/-- `schemaLooksLikeBool` (builder/builder.go:496-506). -/
def schemaLooksLikeBool (s : SchemaF S) : Bool := s.enum.any boolKind

/-- `guessSchemaType` (builder/builder.go:291-338). -/
def guessSchemaType (lib : SchemaLib) (s : SchemaF S) : List PrimType :=
  (if schemaLooksLikeObject s then [.object] else []) ++
  (if schemaLooksLikeArray s then [.array] else []) ++
  (if schemaLooksLikeString lib s then [.string] else []) ++
  (match schemaLooksLikeNumber s with | some t => [t] | none => []) ++
  (if schemaLooksLikeBool s then [.boolean] else [])

/-! ## One constraint per type -/

/-- `if v.Initialized { c = f(c, v.Val) }` -/
def applyIf {C V : Type} (o : Option V) (f : C → V → C) (c : C) : C :=
  match o with
  | some v => f c v
  | none => c

/-- The setters of `buildStringConstraint` (builder/string.go:17-39) in order. -/
def stringOf (s : SchemaF S) : StrC :=
  let c := String'
  let c := applyIf s.maxLength StrC.MaxLength c
  let c := applyIf s.minLength StrC.MinLength c
  let c := applyIf s.pattern StrC.Regexp c
  let c := if s.format ≠ [] then c.Format s.format else c
  let c := if 0 < s.enum.length then c.Enum s.enum else c
  match s.dflt with
  | .nil => c
  | v => c.Default v

/-- The setters common to `buildIntegerConstraint` and `buildNumberConstraint` (builder/number.go:17-33, 53-69). -/
def boundsOf (s : SchemaF S) : NumC :=
  let c := Number'
  let c := match s.minimum with
    | some m => applyIf s.exclMin NumC.ExclusiveMinimum (c.Minimum m)
    | none => c
  let c := match s.maximum with
    | some m => applyIf s.exclMax NumC.ExclusiveMaximum (c.Maximum m)
    | none => c
  applyIf s.multipleOf NumC.MultipleOf c

/-- The setters of `buildIntegerConstraint` (builder/number.go:17-41). -/
def integerOf (s : SchemaF S) : NumC :=
  let c := boundsOf s
  let c := if 0 < s.enum.length then c.Enum s.enum else c
  match s.dflt with
  | .nil => c
  | v => c.Default v

/-- The setters of `buildNumberConstraint` (builder/number.go:53-77). `nc.Enum(lst)` passes the whole list as one
variadic argument. -/
def numberOf (s : SchemaF S) : NumC :=
  let c := boundsOf s
  let c := if 0 < s.enum.length then c.Enum [.slice false s.enum] else c
  match s.dflt with
  | .nil => c
  | v => c.Default v

/-- `buildStringConstraint` (builder/string.go:10-42). -/
def buildString (s : SchemaF S) : BM Constraint :=
  if 0 < s.type.length ∧ .string ∉ s.type then throw (.err .notForString) else pure (.string (stringOf s))

/-- `buildNumberConstraint` (builder/number.go:46-80). -/
def buildNumber (s : SchemaF S) : BM Constraint :=
  if 0 < s.type.length ∧ .number ∉ s.type then throw (.err .notForNumber) else pure (.number (numberOf s))

/-- `buildIntegerConstraint` (builder/number.go:10-44). -/
def buildInteger (s : SchemaF S) : BM Constraint :=
  if 0 < s.type.length ∧ .integer ∉ s.type then throw (.err .notForInteger) else pure (.integer (integerOf s))

/-- `buildBooleanConstraint` (builder/bool.go:8-15). -/
def buildBoolean (s : SchemaF S) : BM Constraint :=
  match s.dflt with
  | .bool b => pure (.boolean (some (.bool b)))
  | _ => pure (.boolean none)

/-- Build a list of schemas in order (builder/builder.go:183-189, builder/array.go:30-36, …). -/
def buildList (σ : Sched) : Nat → List Act → BM (List Constraint)
  | _, [] => pure []
  | i, a :: l => do
    let c ← a (σ.sub i)
    let cs ← buildList σ (i + 1) l
    pure (c :: cs)

/-- `buildArrayConstraint` (builder/array.go:9-74). -/
def buildArray (s : SchemaF Act) (σ : Sched) : BM Constraint := do
  let a ← (match s.items with
    | .nil => pure Array'
    | .list [] => throw .panic                       -- `items.Schemas[0]`
    | .list (a :: _) => do
      let c ← a (σ.sub 0)
      pure (Array'.Items (some c))
    | .tuple l => do
      let cs ← buildList (σ.sub 1) 0 l
      let a := Array'.PositionalItems cs
      match s.additionalItems with
      | .nil => pure (a.AdditionalItems none)
      | .schema x => do
        let c ← x (σ.sub 2)
        pure (a.AdditionalItems (some c))
      | .allow => pure (a.AdditionalItems (some .empty)) : BM (ArrC Constraint))
  let a := applyIf s.minItems ArrC.MinItems a
  let a := applyIf s.maxItems ArrC.MaxItems a
  let a := applyIf s.uniqueItems ArrC.UniqueItems a
  pure (.array a)

/-- The loop over `Properties` (builder/object.go:27-34). -/
def buildProps (σ : Sched) : Nat → List (GoStr × Act) → ObjC Constraint → BM (ObjC Constraint)
  | _, [], o => pure o
  | i, (n, a) :: l, o => do
    let c ← a (σ.sub i)
    buildProps σ (i + 1) l (o.AddProp n c)

/-- The loop over `PatternProperties` (builder/object.go:36-42). -/
def buildPats (σ : Sched) : Nat → List (Nat × GoStr × Act) → ObjC Constraint → BM (ObjC Constraint)
  | _, [], o => pure o
  | i, (id, src, a) :: l, o => do
    let c ← a (σ.sub i)
    buildPats σ (i + 1) l (o.PatternProperties id src c)

/-- The loop over `Dependencies.Schemas` (builder/object.go:61-68). -/
def buildDeps (σ : Sched) : Nat → List (GoStr × Act) → ObjC Constraint → BM (ObjC Constraint)
  | _, [], o => pure o
  | i, (n, a) :: l, o => do
    let c ← a (σ.sub i)
    buildDeps σ (i + 1) l (o.SchemaDependency n c)

/-- The part of `buildObjectConstraint` before the loops (builder/object.go:15-25). -/
def objectStart (s : SchemaF S) : ObjC Constraint :=
  let o := if 0 < s.required.length then Object'.Required s.required else Object'
  let o := applyIf s.minProps ObjC.MinProperties o
  applyIf s.maxProps ObjC.MaxProperties o

/-- `buildObjectConstraint` (builder/object.go:9-72). -/
def buildObject (s : SchemaF Act) (σ : Sched) : BM Constraint := do
  let o ← buildProps (σ.sub 0) 0 (shuffle (σ.sub 1).key s.properties) (objectStart s)
  let o ← buildPats (σ.sub 2) 0 (shuffle (σ.sub 3).key s.patternProps) o
  let o ← (match s.additionalProps with
    | .nil => pure o
    | .schema x => do
      let c ← x (σ.sub 4)
      pure (o.AdditionalProperties (some c))
    | .allow => pure (o.AdditionalProperties (some .empty)) : BM (ObjC Constraint))
  let o := (shuffle (σ.sub 5).key s.depNames).foldl (fun o d => o.PropDependency d.1 d.2) o
  let o ← buildDeps (σ.sub 6) 0 (shuffle (σ.sub 7).key s.depSchemas) o
  pure (.object o)

/-! ## `buildFromSchema` -/

/-- One round of the type loop (builder/builder.go:235-276). -/
def buildType (s : SchemaF Act) (σ : Sched) : PrimType → BM Constraint
  | .string => buildString s
  | .number => buildNumber s
  | .integer => buildInteger s
  | .boolean => buildBoolean s
  | .array => buildArray s σ
  | .object => buildObject s σ
  | .null => pure .null
  | t => throw (.err (.unknownType t))

/-- The type loop (builder/builder.go:233-278). -/
def buildTypes (s : SchemaF Act) (σ : Sched) : Nat → List PrimType → BM (List Constraint)
  | _, [] => pure []
  | i, t :: l => do
    let c ← buildType s (σ.sub i) t
    let cs ← buildTypes s σ (i + 1) l
    pure (c :: cs)

/-- The switch over not/allOf/anyOf/oneOf (builder/builder.go:168-217): what is added to `ct`. -/
def buildCombo (s : SchemaF Act) (σ : Sched) : BM (List Constraint) :=
  match s.not with
  | some a => do
    let c ← a (σ.sub 0)
    pure [.not (some c)]
  | none =>
    if 0 < s.allOf.length then do
      let cs ← buildList σ 0 s.allOf
      pure [reduceAll cs]
    else if 0 < s.anyOf.length then do
      let cs ← buildList σ 0 s.anyOf
      pure [reduceAny cs]
    else if 0 < s.oneOf.length then do
      let cs ← buildList σ 0 s.oneOf
      pure [reduceOneOf cs]
    else pure []

/-- `sort.Sort(sts)` (builder/builder.go:229): the constants are compared as integers. -/
def sortTypes (lib : SchemaLib) (l : List PrimType) : List PrimType :=
  l.insertionSort (fun a b => lib.rank a ≤ lib.rank b)

/-- The types a schema is built for (builder/builder.go:219-229). -/
def schemaTypes (lib : SchemaLib) (s : SchemaF S) : List PrimType :=
  sortTypes lib (if 0 < s.type.length then s.type else guessSchemaType lib s)

/-- `buildFromSchema` (builder/builder.go:156-289) on a non-nil schema, building references into constraint map `m`. -/
def buildNode (lib : SchemaLib) (m : Nat) (s : SchemaF Act) : Act := fun σ =>
  if s.reference ≠ [] then do
    modify (addName s.reference)
    pure (.ref m s.reference)
  else do
    let ct ← buildCombo s (σ.sub 0)
    let sts := schemaTypes lib s
    if 0 < sts.length then do
      let cs ← buildTypes s (σ.sub 1) 0 sts
      pure (reduceAll (ct ++ [reduceAny cs]))
    else if 0 < s.enum.length then pure (reduceAll (ct ++ [.enum s.enum]))
    else pure (reduceAll ct)

/-- `buildFromSchema` (builder/builder.go:156-289); a nil schema is dereferenced at once. -/
def build (lib : SchemaLib) (m : Nat) : Schema → Act := Schema.fold (fun _ => throw .panic) (buildNode lib m)

/-! ## References -/

/-- What resolving a reference gives (builder/builder.go:122-141): an error; a `*schema.Schema` (possibly nil); a JSON object,
with the outcome of extracting a schema from it; or anything else. -/
inductive Resolved where
  | fail
  | schema (s : Schema)
  | object (s : Option (SchemaF Schema))
  | other

/-- `r.Resolve(jsctx, ·)` for the context at hand. The resolver is consulted at most once per name. -/
abbrev Resolver := GoStr → Resolved

/-- `s1` as passed to `buildFromSchema` (builder/builder.go:131-143). -/
def Resolved.target : Resolved → Except BuildStop Schema
  | .fail => .error (.err .resolve)
  | .schema s => .ok s
  | .object (some s) => .ok (.mk s)
  | .object none => .error (.err .extract)
  | .other => .ok .nil

/-- The validator's reference table and `ctx.R`. -/
structure BState where
  table : List (GoStr × Constraint)
  names : List GoStr

/-- The sublist selected by the binary digits of `k`. -/
def pick {α : Type _} : Nat → List α → List α
  | _, [] => []
  | k, a :: l => if k % 2 = 1 then a :: pick (k / 2) l else pick (k / 2) l

/-- What remains to be visited by a `range` over a map after some entries were added: entries added during the
iteration may be produced or skipped, and the order is unspecified. -/
def revisit (σ : Sched) (rest new : List GoStr) : List GoStr :=
  shuffle (σ.sub 0).key (rest ++ pick (σ.sub 1).key new)

section
variable (lib : SchemaLib) (m : Nat) (resolve : Resolver)

mutual
/-- `compileReferences` (builder/builder.go:110-154). The first argument bounds the depth of the recursion. -/
def compileRef : Nat → Sched → GoStr → BState → Except CompileStop BState
  | 0, _, _, _ => .error .diverge
  | k + 1, σ, ref, st =>
    if (alookup ref st.table).isSome then .ok st
    else
      match (resolve ref).target with
      | .error e => .error (.stop e)
      | .ok s1 =>
        match build lib m s1 (σ.sub 0) st.names with
        | .error e => .error (.stop e)
        | .ok (c1, names) => compileLoop k (σ.sub 1) (shuffle (σ.sub 2).key names) ⟨ainsert ref c1 st.table, names⟩

/-- `for ref := range ctx.R { compileReferences(…) }` (builder/builder.go:100-104, 148-152). -/
def compileLoop : Nat → Sched → List GoStr → BState → Except CompileStop BState
  | _, _, [], st => .ok st
  | 0, _, _ :: _, _ => .error .diverge
  | k + 1, σ, ref :: rest, st =>
    match compileRef k (σ.sub 0) ref st with
    | .error e => .error e
    | .ok st' => compileLoop k (σ.sub 1) (revisit (σ.sub 2) rest (st'.names.filter (· ∉ st.names))) st'
end

/-- The validator that is returned: its root constraint and its reference table. -/
structure Built where
  root : Constraint
  table : List (GoStr × Constraint)

/-- `BuildWithCtx` (builder/builder.go:57-108), with this much fuel for `compileReferences`. -/
def BuildWithCtx (fuel : Nat) (σ : Sched) (s : Schema) : Except CompileStop Built :=
  match s with
  | .nil => .error (.stop (.err .nilSchema))
  | s =>
    match build lib m s (σ.sub 0) [] with
    | .error e => .error (.stop e)
    | .ok (c, names) =>
      let st : BState := if b! "#" ∈ names then ⟨[(b! "#", c)], names.filter (· ≠ b! "#")⟩ else ⟨[], names⟩
      match compileLoop lib m resolve fuel (σ.sub 1) (shuffle (σ.sub 2).key st.names) st with
      | .error e => .error e
      | .ok st => .ok ⟨c, st.table⟩

/-- `Build` (builder/builder.go:34-51); `resolve` resolves within the schema itself. -/
def Build (fuel : Nat) (σ : Sched) (s : Schema) : Except CompileStop Built :=
  match s with
  | .nil => .error (.stop (.err .nilSchema))
  | s => BuildWithCtx lib m resolve fuel σ s
end

/-- The constraint maps as the built validator sees them: its own is number `m`. -/
def Built.env (b : Built) (m : Nat) : Env := fun m' n => if m' = m then alookup n b.table else none

end Jsval
