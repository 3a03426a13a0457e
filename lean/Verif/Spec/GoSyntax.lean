import Verif.Model.Constraint
import Verif.Model.GoText
import Verif.Model.Validate
import Verif.Spec.Decimal
/-!
# Reading Go source

An independent reader for the small part of Go that generated code uses: a lexer (with automatic semicolons), a parser
and an evaluator for the fluent constructors. It follows the Go specification, not generator.go, and knows nothing about
how the text was produced. Constructs outside this part (comments, other statements, operators and literal forms) make it
answer `none`.
-/
namespace Jsval
namespace Go

/-! ## Lexical elements -/

/-- Tokens. A semicolon may have been inserted automatically. `flt n k` is the literal with value `n / 10^k`. -/
inductive Tok where
  | ident (s : GoStr)
  | int (n : Nat)
  | flt (n k : Nat)
  | str (s : GoStr)
  | op (c : UInt8)
deriving DecidableEq, Repr

/-- What the lexer is in the middle of. -/
inductive LMode where
  | normal
  | ident (acc : GoStr)
  /-- digits so far: their value, and whether the literal may be continued by digits (not after a leading zero) -/
  | int (n : Nat) (more : Bool)
  | flt (n k : Nat)
  | str (acc : GoStr)
  | esc (acc : GoStr)
  /-- in `\x`, `\u` or `\U`: how many hexadecimal digits are still to come, and their value so far -/
  | hex (acc : GoStr) (left : Nat) (v : Nat) (byte : Bool)
  | bad
deriving DecidableEq, Repr

/-- Lexer state: the tokens so far (last first), the mode, and whether a newline here would insert a semicolon. -/
structure LSt where
  out : List Tok
  mode : LMode
  semi : Bool

/-- An ASCII letter or underscore. -/
def isLetter (c : UInt8) : Bool := (0x61 ≤ c && c ≤ 0x7A) || (0x41 ≤ c && c ≤ 0x5A) || c == 0x5F

/-- The keywords after which a newline inserts no semicolon. -/
def keywords : List GoStr :=
  [b! "case", b! "chan", b! "const", b! "default", b! "defer", b! "else", b! "for", b! "func", b! "go", b! "goto",
   b! "if", b! "import", b! "interface", b! "map", b! "package", b! "range", b! "select", b! "struct", b! "switch",
   b! "type", b! "var"]

/-- The value of a hexadecimal digit. -/
def hexVal (c : UInt8) : Option Nat :=
  if 0x30 ≤ c ∧ c ≤ 0x39 then some (c.toNat - 48)
  else if 0x61 ≤ c ∧ c ≤ 0x66 then some (c.toNat - 87)
  else if 0x41 ≤ c ∧ c ≤ 0x46 then some (c.toNat - 55)
  else none

/-- UTF-8 encoding of a Unicode code point (`none` for surrogates and values out of range, which Go rejects). -/
def encodeRune (r : Nat) : Option GoStr :=
  if r < 0x80 then some [UInt8.ofNat r]
  else if r < 0x800 then some [UInt8.ofNat (0xC0 + r / 64), UInt8.ofNat (0x80 + r % 64)]
  else if 0xD800 ≤ r ∧ r < 0xE000 then none
  else if r < 0x10000 then
    some [UInt8.ofNat (0xE0 + r / 4096), UInt8.ofNat (0x80 + r / 64 % 64), UInt8.ofNat (0x80 + r % 64)]
  else if r < 0x110000 then
    some [UInt8.ofNat (0xF0 + r / 262144), UInt8.ofNat (0x80 + r / 4096 % 64), UInt8.ofNat (0x80 + r / 64 % 64),
      UInt8.ofNat (0x80 + r % 64)]
  else none

/-- Operators and punctuation that occur. -/
def isOp (c : UInt8) : Bool :=
  c == 0x28 || c == 0x29 || c == 0x5B || c == 0x5D || c == 0x7B || c == 0x7D || c == 0x2C || c == 0x2E || c == 0x3B ||
  c == 0x3D || c == 0x26 || c == 0x2A || c == 0x2D

/-- `)`, `]`, `}`: a newline after them inserts a semicolon. -/
def isClosing (c : UInt8) : Bool := c == 0x29 || c == 0x5D || c == 0x7D

/-- A character outside any token. -/
def lexNormal (s : LSt) (c : UInt8) : LSt :=
  if c == 0x0A then
    if s.semi then { s with out := .op 0x3B :: s.out, semi := false } else s
  else if c == 0x20 || c == 0x09 || c == 0x0D then s
  else if isLetter c then { s with mode := .ident [c] }
  else if isDigit c then { s with mode := .int (c.toNat - 48) (c != 0x30) }
  else if c == 0x22 then { s with mode := .str [] }
  else if isOp c then { s with out := .op c :: s.out, semi := isClosing c }
  else { s with mode := .bad }

/-- End a pending identifier or number. -/
def settle (s : LSt) : LSt :=
  match s.mode with
  | .ident acc => { out := .ident acc :: s.out, mode := .normal, semi := decide (acc ∉ keywords) }
  | .int n _ => { out := .int n :: s.out, mode := .normal, semi := true }
  | .flt n k => { out := .flt n k :: s.out, mode := .normal, semi := true }
  | _ => s

/-- A simple escape. -/
def simpleEsc (c : UInt8) : Option UInt8 :=
  if c == 0x61 then some 0x07
  else if c == 0x62 then some 0x08
  else if c == 0x66 then some 0x0C
  else if c == 0x6E then some 0x0A
  else if c == 0x72 then some 0x0D
  else if c == 0x74 then some 0x09
  else if c == 0x76 then some 0x0B
  else if c == 0x5C then some 0x5C
  else if c == 0x22 then some 0x22
  else none

/-- The lexer on one more byte. -/
def lexStep (s : LSt) (c : UInt8) : LSt :=
  match s.mode with
  | .normal => lexNormal s c
  | .bad => s
  | .ident acc =>
    if isLetter c || isDigit c then { s with mode := .ident (acc ++ [c]) } else lexNormal (settle s) c
  | .int n more =>
    if isDigit c then (if more then { s with mode := .int (n * 10 + (c.toNat - 48)) true } else { s with mode := .bad })
    else if c == 0x2E then { s with mode := .flt n 0 }
    else if isLetter c then { s with mode := .bad }
    else lexNormal (settle s) c
  | .flt n k =>
    if isDigit c then { s with mode := .flt (n * 10 + (c.toNat - 48)) (k + 1) }
    else if isLetter c || c == 0x2E then { s with mode := .bad }
    else lexNormal (settle s) c
  | .str acc =>
    if c == 0x22 then { out := .str acc :: s.out, mode := .normal, semi := true }
    else if c == 0x5C then { s with mode := .esc acc }
    else if c == 0x0A then { s with mode := .bad }
    else { s with mode := .str (acc ++ [c]) }
  | .esc acc =>
    match simpleEsc c with
    | some b => { s with mode := .str (acc ++ [b]) }
    | none =>
      if c == 0x78 then { s with mode := .hex acc 2 0 true }
      else if c == 0x75 then { s with mode := .hex acc 4 0 false }
      else if c == 0x55 then { s with mode := .hex acc 8 0 false }
      else { s with mode := .bad }
  | .hex acc left v byte =>
    match hexVal c with
    | none => { s with mode := .bad }
    | some d =>
      let v := v * 16 + d
      if left ≤ 1 then
        if byte then { s with mode := .str (acc ++ [UInt8.ofNat v]) }
        else
          match encodeRune v with
          | some bs => { s with mode := .str (acc ++ bs) }
          | none => { s with mode := .bad }
      else { s with mode := .hex acc (left - 1) v byte }

/-- The lexer on a text. -/
def lexRun (s : LSt) (t : GoStr) : LSt := t.foldl lexStep s

/-- The tokens of a source text; at its end a semicolon is inserted as at a newline. -/
def lex (t : GoStr) : Option (List Tok) :=
  let s := lexStep (lexRun ⟨[], .normal, false⟩ t) 0x0A
  match s.mode with
  | .normal => some s.out.reverse
  | _ => none

/-! ## Expressions -/

/-- Expressions. `lit slice t l` is the composite literal `t{…}` or `[]t{…}`. -/
inductive Expr where
  | ident (s : GoStr)
  | int (n : Nat)
  | flt (n k : Nat)
  | str (s : GoStr)
  | unary (op : UInt8) (e : Expr)
  | sel (e : Expr) (name : GoStr)
  | call (f : Expr) (args : List Expr)
  | lit (slice : Bool) (t : Expr) (elems : List Expr)

/-- What is open to the left of the current position. -/
inductive Frame where
  /-- `f(args,` -/
  | call (f : Expr) (args : List Expr)
  /-- `t{elems,` or `[]t{elems,` -/
  | lit (slice : Bool) (t : Expr) (elems : List Expr)
  /-- `-` or `&` -/
  | unary (op : UInt8)
  /-- `[]`, a type must follow -/
  | slice

/-- Statements. -/
inductive Stmt where
  | assign (x : GoStr) (e : Expr)
  | expr (e : Expr)

/-- A variable declaration `var name [*]pkg.type`. -/
structure VarDecl where
  name : GoStr
  ptr : Bool
  pkg : GoStr
  type : GoStr
deriving DecidableEq, Repr

/-- Where the parser is. -/
inductive PMode where
  /-- between declarations -/
  | top
  /-- after `var` -/
  | var0
  /-- after `var x` -/
  | var1 (x : GoStr)
  /-- after `var x *` -/
  | var2 (x : GoStr)
  /-- after `var x [*]pkg` -/
  | var3 (x : GoStr) (ptr : Bool) (pkg : GoStr)
  /-- after `var x [*]pkg.` -/
  | var4 (x : GoStr) (ptr : Bool) (pkg : GoStr)
  /-- after the whole declaration -/
  | var5 (d : VarDecl)
  /-- this much of `func init() {` is still to come -/
  | func (left : List Tok)
  /-- between statements -/
  | body
  /-- an operand must follow, or the end of a list -/
  | want (lhs : Option GoStr) (stk : List Frame)
  /-- after `[`, of `[]` -/
  | brack (lhs : Option GoStr) (stk : List Frame)
  /-- after an operand -/
  | have (lhs : Option GoStr) (e : Expr) (stk : List Frame)
  /-- after `operand.` -/
  | dot (lhs : Option GoStr) (e : Expr) (stk : List Frame)
  /-- after the function -/
  | closed
  | bad

/-- Parser state: declarations and statements so far (last first). -/
structure PSt where
  decls : List VarDecl
  stmts : List Stmt
  mode : PMode

/-- Apply the pending prefix operators to an operand. -/
def reduceUnary (e : Expr) : List Frame → Expr × List Frame
  | .unary op :: stk => reduceUnary (.unary op e) stk
  | stk => (e, stk)

/-- A token where an operand may start. -/
def stepWant (lhs : Option GoStr) (stk : List Frame) : Tok → PMode
  | .ident s => if s ∈ keywords then .bad else .have lhs (.ident s) stk
  | .int n => .have lhs (.int n) stk
  | .flt n k => .have lhs (.flt n k) stk
  | .str s => .have lhs (.str s) stk
  | .op c =>
    if c == 0x2D || c == 0x26 then .want lhs (.unary c :: stk)
    else if c == 0x5B then .brack lhs stk
    else if c == 0x29 then
      match stk with
      | .call f args :: stk => .have lhs (.call f args) stk
      | _ => .bad
    else if c == 0x7D then
      match stk with
      | .lit sl t es :: stk => .have lhs (.lit sl t es) stk
      | _ => .bad
    else .bad

/-- A punctuation token after an operand, within a statement. -/
def stepHave (lhs : Option GoStr) (e : Expr) (stk : List Frame) (c : UInt8) : PMode :=
  if c == 0x2E then .dot lhs e stk
  else if c == 0x28 then .want lhs (.call e [] :: stk)
  else if c == 0x7B then
    match stk with
    | .slice :: stk => .want lhs (.lit true e [] :: stk)
    | stk => .want lhs (.lit false e [] :: stk)
  else
    let (e, stk) := reduceUnary e stk
    if c == 0x2C then
      match stk with
      | .call f args :: stk => .want lhs (.call f (args ++ [e]) :: stk)
      | .lit sl t es :: stk => .want lhs (.lit sl t (es ++ [e]) :: stk)
      | _ => .bad
    else if c == 0x29 then
      match stk with
      | .call f args :: stk => .have lhs (.call f (args ++ [e])) stk
      | _ => .bad
    else if c == 0x7D then
      match stk with
      | .lit sl t es :: stk => .have lhs (.lit sl t (es ++ [e])) stk
      | _ => .bad
    else if c == 0x3D then
      match lhs, e, stk with
      | none, .ident x, [] => .want (some x) []
      | _, _, _ => .bad
    else .bad

/-- The parser on one more token. -/
def parseStep (s : PSt) (t : Tok) : PSt :=
  match s.mode with
  | .top =>
    if t = .ident (b! "var") then { s with mode := .var0 }
    else if t = .ident (b! "func") then
      { s with mode := .func [.ident (b! "init"), .op 0x28, .op 0x29, .op 0x7B] }
    else { s with mode := .bad }
  | .var0 => match t with | .ident x => { s with mode := if x ∈ keywords then .bad else .var1 x } | _ => { s with mode := .bad }
  | .var1 x =>
    match t with
    | .op 0x2A => { s with mode := .var2 x }
    | .ident p => { s with mode := .var3 x false p }
    | _ => { s with mode := .bad }
  | .var2 x => match t with | .ident p => { s with mode := .var3 x true p } | _ => { s with mode := .bad }
  | .var3 x ptr p => match t with | .op 0x2E => { s with mode := .var4 x ptr p } | _ => { s with mode := .bad }
  | .var4 x ptr p => match t with | .ident q => { s with mode := .var5 ⟨x, ptr, p, q⟩ } | _ => { s with mode := .bad }
  | .var5 d => match t with | .op 0x3B => { s with decls := d :: s.decls, mode := .top } | _ => { s with mode := .bad }
  | .func left =>
    match left with
    | [] => { s with mode := .bad }
    | [t'] => if t = t' then { s with mode := .body } else { s with mode := .bad }
    | t' :: left => if t = t' then { s with mode := .func left } else { s with mode := .bad }
  | .body =>
    if t = .op 0x7D then { s with mode := .closed }
    else { s with mode := stepWant none [] t }
  | .want lhs stk => { s with mode := stepWant lhs stk t }
  | .brack lhs stk => if t = .op 0x5D then { s with mode := .want lhs (.slice :: stk) } else { s with mode := .bad }
  | .dot lhs e stk => match t with | .ident n => { s with mode := .have lhs (.sel e n) stk } | _ => { s with mode := .bad }
  | .have lhs e stk =>
    match t with
    | .op c =>
      if c == 0x3B then
        match reduceUnary e stk, lhs with
        | (e, []), some x => { s with stmts := .assign x e :: s.stmts, mode := .body }
        | (e, []), none => { s with stmts := .expr e :: s.stmts, mode := .body }
        | _, _ => { s with mode := .bad }
      else { s with mode := stepHave lhs e stk c }
    | _ => { s with mode := .bad }
  | .closed => if t = .op 0x3B then { s with mode := .top } else { s with mode := .bad }
  | .bad => s

/-- The parser on a list of tokens. -/
def parseRun (s : PSt) (l : List Tok) : PSt := l.foldl parseStep s

/-- A program: its variables and the body of `init`. -/
structure Prog where
  decls : List VarDecl
  stmts : List Stmt

/-- Read a source file (without package clause, as `format.Source` allows). -/
def parseProg (t : GoStr) : Option Prog :=
  match lex t with
  | none => none
  | some l =>
    let s := parseRun ⟨[], [], .top⟩ l
    match s.mode with
    | .top => some ⟨s.decls.reverse, s.stmts.reverse⟩
    | _ => none

/-- Read a single expression. -/
def parseExpr (t : GoStr) : Option Expr :=
  match lex t with
  | none => none
  | some l =>
    let s := parseRun ⟨[], [], .want none []⟩ l
    match s.mode, s.stmts with
    | .body, [.expr e] => some e
    | _, _ => none

/-! ## Evaluation -/

/-- A `*JSVal` under construction. -/
structure JV where
  name : GoStr
  cmap : Option Nat
  root : Option Constraint

/-- Values of expressions. Numbers are untyped constants; `flt neg n k` is `±n / 10^k`. -/
inductive Val where
  | int (n : Int)
  | flt (neg : Bool) (n k : Nat)
  | str (s : GoStr)
  | bool (b : Bool)
  | con (c : Constraint)
  | cons (l : List Constraint)
  /-- a `*ConstraintMap`, by identity -/
  | cmap (m : Nat)
  | jv (j : JV)

/-- A constant as argument of type `float64`. -/
def Val.toF64 : Val → Option F64
  | .int n => some (F64.ofInt n)
  | .flt neg n k => decF64 neg n k
  | _ => none

/-- A constant as argument of type `interface{}`. -/
def Val.toAny : Val → Option GoVal
  | .int n => some (.int .int n)
  | .flt neg n k => (decF64 neg n k).map (.float .f64)
  | .str s => some (.str s)
  | .bool b => some (.bool b)
  | _ => none

/-- An argument of type `string`. -/
def Val.toStr : Val → Option GoStr
  | .str s => some s
  | _ => none

/-- All or nothing. -/
def allSome {α : Type} : List (Option α) → Option (List α)
  | [] => some []
  | none :: _ => none
  | some a :: l => (allSome l).map (a :: ·)

/-- Package variables. -/
def pkgVar (n : GoStr) : Option Val :=
  if n = b! "EmptyConstraint" then some (.con .empty)
  else if n = b! "NullConstraint" then some (.con .null)
  else none

/-- Package functions. -/
def pkgFunc (n : GoStr) (args : List Val) : Option Val :=
  match args with
  | [] =>
    if n = b! "String" then some (.con (.string String'))
    else if n = b! "Number" then some (.con (.number Number'))
    else if n = b! "Integer" then some (.con (.integer Number'))
    else if n = b! "Boolean" then some (.con (.boolean none))
    else if n = b! "Array" then some (.con (.array Array'))
    else if n = b! "Object" then some (.con (.object Object'))
    else if n = b! "Any" then some (.con (.any []))
    else if n = b! "All" then some (.con (.all []))
    else if n = b! "OneOf" then some (.con (.oneOf []))
    else if n = b! "New" then some (.jv ⟨[], none, none⟩)
    else none
  | [.con c] => if n = b! "Not" then some (.con (.not (some c))) else none
  | [.cmap m] => if n = b! "Reference" then some (.con (.ref m [])) else none
  | _ => none

/-- Methods of string constraints. -/
def strMethod (c : StrC) (n : GoStr) (args : List Val) : Option StrC :=
  if n = b! "Enum" then (allSome (args.map Val.toAny)).map c.Enum
  else match args with
    | [a] =>
      if n = b! "MaxLength" then (match a with | .int i => some (c.MaxLength i) | _ => none)
      else if n = b! "MinLength" then (match a with | .int i => some (c.MinLength i) | _ => none)
      else if n = b! "Format" then a.toStr.map c.Format
      else if n = b! "RegexpString" then a.toStr.map c.Regexp
      else if n = b! "Default" then a.toAny.map c.Default
      else none
    | _ => none

/-- Methods of number and integer constraints. -/
def numMethod (c : NumC) (n : GoStr) (args : List Val) : Option NumC :=
  match args with
  | [a] =>
    if n = b! "Minimum" then a.toF64.map c.Minimum
    else if n = b! "Maximum" then a.toF64.map c.Maximum
    else if n = b! "ExclusiveMinimum" then (match a with | .bool b => some (c.ExclusiveMinimum b) | _ => none)
    else if n = b! "ExclusiveMaximum" then (match a with | .bool b => some (c.ExclusiveMaximum b) | _ => none)
    else if n = b! "Default" then a.toAny.map c.Default
    else none
  | _ => none

/-- Methods of array constraints. -/
def arrMethod (c : ArrC Constraint) (n : GoStr) (args : List Val) : Option (ArrC Constraint) :=
  match args with
  | [.con a] =>
    if n = b! "Items" then some (c.Items (some a))
    else if n = b! "AdditionalItems" then some (c.AdditionalItems (some a))
    else none
  | [.cons l] => if n = b! "PositionalItems" then some (c.PositionalItems l) else none
  | [.int i] =>
    if n = b! "MinItems" then some (c.MinItems i)
    else if n = b! "MaxItems" then some (c.MaxItems i)
    else none
  | [.bool b] => if n = b! "UniqueItems" then some (c.UniqueItems b) else none
  | _ => none

/-- Methods of object constraints. `PatternPropertiesString` compiles its argument, giving a regular expression object
not yet in the table. -/
def objMethod (c : ObjC Constraint) (n : GoStr) (args : List Val) : Option (ObjC Constraint) :=
  if n = b! "Required" then (allSome (args.map Val.toStr)).map c.Required
  else match args with
    | [.con a] => if n = b! "AdditionalProperties" then some (c.AdditionalProperties (some a)) else none
    | [.str s, .con a] =>
      if n = b! "AddProp" then some (c.AddProp s a)
      else if n = b! "PatternPropertiesString" then some (c.PatternProperties c.patterns.length s a)
      else none
    | [.str s, .str d] => if n = b! "PropDependency" then some (c.PropDependency s [d]) else none
    | _ => none

/-- `Add` of the combinators. -/
def addMethod (l : List Constraint) (n : GoStr) (args : List Val) : Option (List Constraint) :=
  match args with
  | [.con a] => if n = b! "Add" then some (l ++ [a]) else none
  | _ => none

/-- Methods of constraints. -/
def conMethod (c : Constraint) (n : GoStr) (args : List Val) : Option Constraint :=
  match c with
  | .string c => (strMethod c n args).map .string
  | .number c => (numMethod c n args).map .number
  | .integer c => (numMethod c n args).map .integer
  | .array c => (arrMethod c n args).map .array
  | .object c => (objMethod c n args).map .object
  | .any l => (addMethod l n args).map .any
  | .all l => (addMethod l n args).map .all
  | .oneOf l => (addMethod l n args).map .oneOf
  | .boolean _ =>
    match args with
    | [a] => if n = b! "Default" then a.toAny.map (fun v => .boolean (some v)) else none
    | _ => none
  | .ref m _ =>
    match args with
    | [.str s] => if n = b! "RefersTo" then some (.ref m s) else none
    | _ => none
  | _ => none

/-- Methods of validators. -/
def jvMethod (j : JV) (n : GoStr) (args : List Val) : Option JV :=
  match args with
  | [.str s] => if n = b! "SetName" then some { j with name := s } else none
  | [.cmap m] => if n = b! "SetConstraintMap" then some { j with cmap := some m } else none
  | [.con c] => if n = b! "SetRoot" then some { j with root := some c } else none
  | _ => none

/-- Method calls. -/
def method (r : Val) (n : GoStr) (args : List Val) : Option Val :=
  match r with
  | .con c => (conMethod c n args).map .con
  | .jv j => (jvMethod j n args).map .jv
  | _ => none

/-- The elements of a `[]jsval.Constraint{…}`. -/
def Val.toCon : Val → Option Constraint
  | .con c => some c
  | _ => none

/-- Whether this is `jsval.x`, and which `x`. -/
def isPkg : Expr → Bool
  | .ident p => decide (p = b! "jsval")
  | _ => false

mutual
/-- The value of an expression, given the values of variables. -/
def eval (ρ : GoStr → Option Val) : Expr → Option Val
  | .ident s =>
    if s = b! "true" then some (.bool true)
    else if s = b! "false" then some (.bool false)
    else ρ s
  | .int n => some (.int n)
  | .flt n k => some (.flt false n k)
  | .str s => some (.str s)
  | .unary op e =>
    if op == 0x2D then
      match eval ρ e with
      | some (.int n) => some (.int (-n))
      | some (.flt neg n k) => some (.flt (!neg) n k)
      | _ => none
    else none
  | .sel e n => if isPkg e then pkgVar n else none
  | .call (.sel e n) args =>
    match evalArgs ρ args with
    | none => none
    | some vs =>
      if isPkg e then pkgFunc n vs
      else
        match eval ρ e with
        | some v => method v n vs
        | none => none
  | .call _ _ => none
  | .lit sl t es =>
    match sl, t with
    | true, .sel p n =>
      if isPkg p && decide (n = b! "Constraint") then
        match evalArgs ρ es with
        | some vs => (allSome (vs.map Val.toCon)).map .cons
        | none => none
      else none
    | _, _ => none
/-- The values of arguments. -/
def evalArgs (ρ : GoStr → Option Val) : List Expr → Option (List Val)
  | [] => some []
  | e :: es =>
    match eval ρ e, evalArgs ρ es with
    | some v, some vs => some (v :: vs)
    | _, _ => none
end

/-- State of a running program: variables, and the constraint maps allocated so far with their tables. -/
structure Mem where
  vars : List (GoStr × Val)
  maps : List (List (GoStr × Constraint))

/-- Is this `&jsval.ConstraintMap{}`? -/
def isNewMap : Expr → Bool
  | .unary 0x26 (.lit false (.sel p n) []) => isPkg p && decide (n = b! "ConstraintMap")
  | _ => false

/-- Whether a value may be assigned to a variable of the declared type. -/
def typeOk (d : VarDecl) (v : Val) : Bool :=
  decide (d.pkg = b! "jsval") &&
  match v with
  | .con _ => !d.ptr && decide (d.type = b! "Constraint")
  | .cmap _ => d.ptr && decide (d.type = b! "ConstraintMap")
  | .jv _ => d.ptr && decide (d.type = b! "JSVal")
  | _ => false

/-- The declared names are distinct, and none hides the package or a predeclared constant or is `init` or blank. -/
def declsOk (l : List VarDecl) : Bool :=
  decide (l.map (·.name)).Nodup &&
  l.all (fun d => decide (d.name ∉ [b! "jsval", b! "init", b! "true", b! "false", b! "_"]))

/-- Run a statement: an assignment to a declared variable, the allocation of a constraint map, or a call of
`SetReference`. -/
def exec (decls : List VarDecl) (s : Mem) : Stmt → Option Mem
  | .assign x e =>
    match decls.find? (fun d => decide (d.name = x)) with
    | none => none
    | some d =>
      if isNewMap e then
        if typeOk d (.cmap s.maps.length) then
          some { vars := ainsert x (.cmap s.maps.length) s.vars, maps := s.maps ++ [[]] }
        else none
      else
        match eval (fun y => alookup y s.vars) e with
        | some v => if typeOk d v then some { s with vars := ainsert x v s.vars } else none
        | none => none
  | .expr (.call (.sel e n) args) =>
    match eval (fun y => alookup y s.vars) e, evalArgs (fun y => alookup y s.vars) args with
    | some (.cmap m), some [.str name, .con c] =>
      if n = b! "SetReference" then
        some { s with maps := s.maps.modify m (fun t => ainsert name c t) }
      else none
    | _, _ => none
  | .expr _ => none

/-- Run a list of statements. -/
def execAll (decls : List VarDecl) : List Stmt → Mem → Option Mem
  | [], s => some s
  | st :: l, s => (exec decls s st).bind (execAll decls l)

/-- Run `init`. -/
def Prog.run (p : Prog) : Option Mem := if declsOk p.decls then execAll p.decls p.stmts ⟨[], []⟩ else none

end Go
end Jsval
