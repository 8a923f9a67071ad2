import Verif.Expr.Spec

/-!
# Expressions: model of the parser, of the code it generates and of the machine that runs it

The parser makes no syntax tree: it emits instructions while it reads tokens, leaves stubs for forward
jumps and fills them in later; in constant expressions it computes values instead.

Simplified: designators are single tokens and single instructions; strings, pointers (`&x`), closures,
structured types and `real32` are left out (with them the temporary variables); so are the blocks that
`&&`, `||` and `? :` open for temporary variables (`Verif/Release`) and the peephole optimizer
(`Verif/Peephole`).  Line information and the texts of error messages are left out.
-/

namespace Umka.Expr
open Umka.Arith (Kind UnOp BinOp kindSigned)
open Spec (Ty Tok Ops Env)

variable {E V σ : Type}

/-- Instructions (umka_vm.h:31-77) as far as expressions of the considered types use them. -/
inductive Instr (V : Type)
  /-- `OP_NOP`: a stub; the machine refuses to execute it -/
  | nop
  /-- `OP_PUSH` -/
  | push (v : V)
  /-- the code of a designator, with `OP_DEREF` -/
  | desig (i : Nat)
  /-- `OP_UNARY` -/
  | unary (op : UnOp) (t : Ty)
  /-- `OP_BINARY` -/
  | binary (op : BinOp) (t : Ty)
  /-- `OP_CALL_BUILTIN` with `BUILTIN_MAKEREAL` -/
  | makeReal (k : Kind)
  /-- `OP_CALL_BUILTIN` with `BUILTIN_MAKEREALLEFT` -/
  | makeRealLeft (k : Kind)
  /-- `OP_ASSERT_RANGE` -/
  | assertRange (dest src : Kind)
  | dup
  | pop
  | goto (dest : Nat)
  | gotoIf (dest : Nat)
  | gotoIfNot (dest : Nat)
  deriving DecidableEq

/-! ## The machine -/

/-- `Fiber`: `ip`, the stack (top first), and everything else. -/
structure Cfg (V σ : Type) where
  ip : Nat
  stack : List V
  data : σ

inductive StepRes (E V σ : Type)
  | next (c : Cfg V σ)
  /-- run-time error of the program -/
  | error (s : σ) (e : E)
  /-- illegal instruction, stack underflow, jump outside the code -/
  | stuck

def advance (c : Cfg V σ) (st : List V) : StepRes E V σ := .next { c with ip := c.ip + 1, stack := st }

def ofRes (c : Cfg V σ) (r : Except E V) (k : V → StepRes E V σ) : StepRes E V σ :=
  match r with
  | .ok v => k v
  | .error e => .error c.data e

/-- One iteration of `vmLoop` (umka_vm.c:4069-4150), with `doPush` (3118), `doPop`, `doDup` (3161-3180),
`doUnary` (3318), `doBinary` (3391), `doAssertRange` (3734), `doGoto`, `doGotoIf`, `doGotoIfNot`
(3809-3831), `doCallBuiltin` with `BUILTIN_MAKEREAL`, `BUILTIN_MAKEREALLEFT` (3921-3932). -/
def step (ops : Ops E V) (env : Env E V σ) (code : List (Instr V)) (c : Cfg V σ) : StepRes E V σ :=
  match code[c.ip]? with
  | none => .stuck
  | some .nop => .stuck
  | some (.push v) => advance c (v :: c.stack)
  | some (.desig i) =>
    let r := env.read i c.data
    ofRes { c with data := r.1 } r.2 fun v => advance { c with data := r.1 } (v :: c.stack)
  | some (.unary op t) =>
    match c.stack with
    | v :: st => ofRes c (ops.unary op t v) fun w => advance c (w :: st)
    | _ => .stuck
  | some (.binary op t) =>
    match c.stack with
    | r :: l :: st => ofRes c (ops.binary op t l r) fun w => advance c (w :: st)
    | _ => .stuck
  | some (.makeReal k) =>
    match c.stack with
    | v :: st => advance c (ops.toReal k v :: st)
    | _ => .stuck
  | some (.makeRealLeft k) =>
    match c.stack with
    | r :: l :: st => advance c (r :: ops.toReal k l :: st)
    | _ => .stuck
  | some (.assertRange d s) =>
    match c.stack with
    | v :: st => ofRes c (ops.assertRange d s v) fun w => advance c (w :: st)
    | _ => .stuck
  | some .dup =>
    match c.stack with
    | v :: st => advance c (v :: v :: st)
    | _ => .stuck
  | some .pop =>
    match c.stack with
    | _ :: st => advance c st
    | _ => .stuck
  | some (.goto d) => .next { c with ip := d }
  | some (.gotoIf d) =>
    match c.stack with
    | v :: st => if ops.truth v then .next { c with ip := d, stack := st } else advance c st
    | _ => .stuck
  | some (.gotoIfNot d) =>
    match c.stack with
    | v :: st => if ops.truth v then advance c st else .next { c with ip := d, stack := st }
    | _ => .stuck

/-- `n` instructions. -/
def run (ops : Ops E V) (env : Env E V σ) (code : List (Instr V)) : Nat → Cfg V σ → StepRes E V σ
  | 0, c => .next c
  | n + 1, c =>
    match step ops env code c with
    | .next c => run ops env code n c
    | r => r

/-! ## The parser -/

inductive Err (E : Type)
  /-- an unexpected token -/
  | syntax
  /-- a factor that begins with a token that is not considered here -/
  | unmodelled
  | incompatible | operator
  /-- not a constant -/
  | notConst
  /-- error in the computation of a constant -/
  | value (e : E)
  /-- not an outcome of the code: the bound on the recursion of the model was too small -/
  | fuel

/-- The state of the compiler: `lex` (the tokens that are left), `gen.code`, `gen.stack` (positions of stubs). -/
structure PS (V : Type) where
  toks : List Tok
  code : List (Instr V)
  stubs : List Nat

/-- `*type` and `*constant`; the latter has no meaning if the expression is not a constant one. -/
structure Item (V : Type) where
  ty : Ty
  val : V

/-- `lexNext` (umka_lexer.c:945) -/
def PS.skip (st : PS V) : PS V := { st with toks := st.toks.tail }

/-- `lexEat` (umka_lexer.c:960-968) -/
def PS.eat (st : PS V) (t : Tok) : Except (Err E) (PS V) :=
  if st.toks.head? = some t then .ok st.skip else .error .syntax

/-- `genAddInstr` (umka_gen.c:82) -/
def PS.emit (st : PS V) (i : Instr V) : PS V := { st with code := st.code ++ [i] }

/-- `genSavePos`, `genNop` (umka_gen.c:928-932, 560) -/
def PS.stub (st : PS V) : PS V := { st with code := st.code ++ [.nop], stubs := st.code.length :: st.stubs }

/-- `genRestorePos` and `genGoFromTo`, `genGoFromToIf`, `genGoFromToIfNot` (umka_gen.c:934-964): the stub that
was left last becomes the jump `j`. -/
def PS.fixup (st : PS V) (j : Instr V) : PS V :=
  { st with code := st.code.set (st.stubs.headD 0) j, stubs := st.stubs.tail }

/-- `typeInteger` (umka_types.h:248-251) -/
def typeInteger : Ty → Bool
  | .ord k => k ∈ [Kind.int8, .int16, .int32, .int, .uint8, .uint16, .uint32, .uint]
  | .real => false

/-- `typeReal` (umka_types.h:278-281) -/
def typeReal : Ty → Bool
  | .real => true
  | _ => false

/-- `typeCompatible` (umka_types.c:506-518); types of the same kind are equivalent here -/
def typeCompatible (l r : Ty) : Bool :=
  l == r || (typeInteger l && typeInteger r) || (typeReal l && typeReal r)

/-- `typeValidOperator` (umka_types.c:575-613), unary operators -/
def validUnary (t : Ty) (op : UnOp) : Bool :=
  match op with
  | .plus => typeInteger t || typeReal t
  | .minus => typeInteger t || typeReal t
  | .xor => typeInteger t
  | .not => t == .bool

/-- `typeValidOperator` (umka_types.c:575-613), binary operators that are applied; `typeComparable`
(umka_types.c:412-438) holds of ordinal and real types -/
def validBinary (t : Ty) (op : BinOp) : Bool :=
  match op with
  | .plus => typeInteger t || typeReal t
  | .minus => typeInteger t || typeReal t
  | .mul => typeInteger t || typeReal t
  | .div => typeInteger t || typeReal t
  | .mod => typeInteger t || typeReal t
  | .and => typeInteger t
  | .or => typeInteger t
  | .xor => typeInteger t
  | .shl => typeInteger t
  | .shr => typeInteger t
  | .eqeq => true
  | .noteq => true
  | .less => true
  | .lesseq => true
  | .greater => true
  | .greatereq => true

/-- `doOrdinalToOrdinalOrRealToRealConv` (umka_expr.c:132-143) -/
def rangeConv (ops : Ops E V) (cst : Bool) (d s : Kind) (src : Item V) (st : PS V) : Except (Err E) (Item V × PS V) :=
  if cst then
    match ops.assertRange d s src.val with
    | .ok v => .ok (⟨.ord d, v⟩, st)
    | .error e => .error (.value e)
  else .ok ({ src with ty := .ord d }, st.emit (.assertRange d s))

/-- `doIntToRealConv` (umka_expr.c:146-158) -/
def intToReal (ops : Ops E V) (cst lhs : Bool) (k : Kind) (src : Item V) (st : PS V) : Item V × PS V :=
  if cst then (⟨.real, ops.toReal k src.val⟩, st)
  else ({ src with ty := .real }, st.emit (if lhs then .makeRealLeft k else .makeReal k))

/-- `doImplicitTypeConvEx` (umka_expr.c:577-673) for the considered types. -/
def implicitConv (ops : Ops E V) (cst lhs rhs : Bool) (dest : Ty) (src : Item V) (st : PS V) :
    Except (Err E) (Item V × PS V) :=
  match dest, src.ty with
  | .ord d, .ord s =>
    if !lhs && !rhs && ((d == .uint && kindSigned (some s)) || (kindSigned (some d) && s == .uint)) then
      rangeConv ops cst d s src st
    else .ok (src, st)
  | .real, .ord s => if typeInteger (.ord s) then .ok (intToReal ops cst lhs s src st) else .ok (src, st)
  | _, .real => .ok (src, st)

/-- `constBinary` or `genBinary` (umka_const.c:247, umka_gen.c:753) -/
def binary (ops : Ops E V) (cst : Bool) (op : BinOp) (l r : Item V) (st : PS V) : Except (Err E) (Item V × PS V) :=
  if cst then
    match ops.binary op l.ty l.val r.val with
    | .ok v => .ok ({ l with val := v }, st)
    | .error e => .error (.value e)
  else .ok (l, st.emit (.binary op l.ty))

/-- `constUnary` or `genUnary` (umka_const.c:217, umka_gen.c:743) -/
def unary (ops : Ops E V) (cst : Bool) (op : UnOp) (a : Item V) (st : PS V) : Except (Err E) (Item V × PS V) :=
  if cst then
    match ops.unary op a.ty a.val with
    | .ok v => .ok ({ a with val := v }, st)
    | .error e => .error (.value e)
  else .ok (a, st.emit (.unary op a.ty))

/-- `doApplyOperator` (umka_expr.c:771-797) with `apply` and `convertLhs` -/
def applyOperator (ops : Ops E V) (cst : Bool) (op : BinOp) (l r : Item V) (st : PS V) :
    Except (Err E) (Item V × PS V) := do
  let (r, st) ← implicitConv ops cst false true l.ty r st
  let (l, st) ← implicitConv ops cst true false r.ty l st
  if typeCompatible l.ty r.ty = false then throw .incompatible
  if validBinary l.ty op = false then throw .operator
  binary ops cst op l r st

/-- `doApplyOperator` (umka_expr.c:771-797) for `&&` and `||`: checks only -/
def checkLogical (ops : Ops E V) (cst : Bool) (l r : Item V) (st : PS V) :
    Except (Err E) (Item V × Item V × PS V) := do
  let (r, st) ← implicitConv ops cst false true l.ty r st
  let (l, st) ← implicitConv ops cst true false r.ty l st
  if typeCompatible l.ty r.ty = false then throw .incompatible
  if (l.ty == Ty.bool) = false then throw .operator
  return (l, r, st)

/-- A literal: `*constant = ...` or `genPushIntConst` etc. (umka_expr.c:2796-2845) -/
def literal (cst : Bool) (no : V) (t : Ty) (v : V) (st : PS V) : Item V × PS V :=
  if cst then (⟨t, v⟩, st.skip) else (⟨t, no⟩, st.skip.emit (.push v))

/-- `parseDesignator` (umka_expr.c:2652) and `genDeref`; in constant expressions only constants are allowed. -/
def designator (env : Env E V σ) (cst : Bool) (no : V) (i : Nat) (st : PS V) : Except (Err E) (Item V × PS V) :=
  if cst then
    match env.const i with
    | some v => .ok (⟨env.ty i, v⟩, st.skip)
    | none => .error .notConst
  else .ok (⟨env.ty i, no⟩, st.skip.emit (.desig i))

/-- `case TOK_PLUS: case TOK_MINUS: case TOK_NOT: case TOK_XOR:` (umka_expr.c:2857-2860) -/
def prefixOp : Option Tok → Option UnOp
  | some .plus => some .plus
  | some .minus => some .minus
  | some .not => some .not
  | some .xor => some .xor
  | _ => none

/-- The condition of the loop of `parseTerm` (umka_expr.c:2919-2920) -/
def termOp : Option Tok → Option BinOp
  | some .mul => some .mul
  | some .div => some .div
  | some .mod => some .mod
  | some .shl => some .shl
  | some .shr => some .shr
  | some .and => some .and
  | _ => none

/-- The condition of the loop of `parseRelationTerm` (umka_expr.c:2943-2944) -/
def relTermOp : Option Tok → Option BinOp
  | some .plus => some .plus
  | some .minus => some .minus
  | some .or => some .or
  | some .xor => some .xor
  | _ => none

/-- The condition in `parseRelation` (umka_expr.c:2967-2968) -/
def relOp : Option Tok → Option BinOp
  | some .eqeq => some .eqeq
  | some .noteq => some .noteq
  | some .less => some .less
  | some .lesseq => some .lesseq
  | some .greater => some .greater
  | some .greatereq => some .greatereq
  | _ => none

mutual

/-- `parseFactor` (umka_expr.c:2764-2911) -/
def parseFactor (ops : Ops E V) (env : Env E V σ) (cst : Bool) : Nat → PS V → Except (Err E) (Item V × PS V)
  | 0, _ => .error .fuel
  | n + 1, st =>
    match prefixOp st.toks.head? with
    | some op => do
      let (a, st) ← parseFactor ops env cst n st.skip
      if validUnary a.ty op = false then throw .operator
      unary ops cst op a st
    | none =>
      match st.toks.head? with
      | some (.ident i) => designator env cst ops.no i st
      | some (.intNumber k) =>
        .ok (literal cst ops.no (if k > 2 ^ 63 - 1 then .ord .uint else .ord .int) (ops.intLit k) st)
      | some (.realNumber k) => .ok (literal cst ops.no .real (ops.realLit k) st)
      | some (.charLiteral k) => .ok (literal cst ops.no (.ord .char) (ops.charLit k) st)
      | some .lpar => do
        let (a, st) ← parseExpr ops env cst n st.skip
        let st ← st.eat .rpar
        return (a, st)
      | some .and => .error .unmodelled
      | some .or => .error .unmodelled
      | some (.other _) => .error .unmodelled
      | _ => .error .syntax

/-- `parseTerm` (umka_expr.c:2915-2936) -/
def parseTerm (ops : Ops E V) (env : Env E V σ) (cst : Bool) : Nat → PS V → Except (Err E) (Item V × PS V)
  | 0, _ => .error .fuel
  | n + 1, st => do
    let (a, st) ← parseFactor ops env cst n st
    termLoop ops env cst n a st

/-- the loop of `parseTerm` -/
def termLoop (ops : Ops E V) (env : Env E V σ) (cst : Bool) :
    Nat → Item V → PS V → Except (Err E) (Item V × PS V)
  | 0, _, _ => .error .fuel
  | n + 1, a, st =>
    match termOp st.toks.head? with
    | some op => do
      let (b, st) ← parseFactor ops env cst n st.skip
      let (a, st) ← applyOperator ops cst op a b st
      termLoop ops env cst n a st
    | none => .ok (a, st)

/-- `parseRelationTerm` (umka_expr.c:2939-2960) -/
def parseRelTerm (ops : Ops E V) (env : Env E V σ) (cst : Bool) : Nat → PS V → Except (Err E) (Item V × PS V)
  | 0, _ => .error .fuel
  | n + 1, st => do
    let (a, st) ← parseTerm ops env cst n st
    relTermLoop ops env cst n a st

/-- the loop of `parseRelationTerm` -/
def relTermLoop (ops : Ops E V) (env : Env E V σ) (cst : Bool) :
    Nat → Item V → PS V → Except (Err E) (Item V × PS V)
  | 0, _, _ => .error .fuel
  | n + 1, a, st =>
    match relTermOp st.toks.head? with
    | some op => do
      let (b, st) ← parseTerm ops env cst n st.skip
      let (a, st) ← applyOperator ops cst op a b st
      relTermLoop ops env cst n a st
    | none => .ok (a, st)

/-- `parseRelation` (umka_expr.c:2963-2986) -/
def parseRel (ops : Ops E V) (env : Env E V σ) (cst : Bool) : Nat → PS V → Except (Err E) (Item V × PS V)
  | 0, _ => .error .fuel
  | n + 1, st => do
    let (a, st) ← parseRelTerm ops env cst n st
    match relOp st.toks.head? with
    | some op => do
      let (b, st) ← parseRelTerm ops env cst n st.skip
      let (a, st) ← applyOperator ops cst op a b st
      return ({ a with ty := .bool }, st)
    | none => return (a, st)

/-- `parseLogicalTerm` (umka_expr.c:2989-3030) -/
def parseLogTerm (ops : Ops E V) (env : Env E V σ) (cst : Bool) : Nat → PS V → Except (Err E) (Item V × PS V)
  | 0, _ => .error .fuel
  | n + 1, st => do
    let (a, st) ← parseRel ops env cst n st
    logTermLoop ops env cst n a st

/-- the loop of `parseLogicalTerm`, with `genShortCircuitProlog`, `genShortCircuitEpilog` (umka_gen.c:1090-1105) -/
def logTermLoop (ops : Ops E V) (env : Env E V σ) (cst : Bool) :
    Nat → Item V → PS V → Except (Err E) (Item V × PS V)
  | 0, _, _ => .error .fuel
  | n + 1, a, st =>
    if st.toks.head? = some .andand then
      let st := st.skip
      if cst then
        if ops.truth a.val then do
          let (b, st) ← parseRel ops env cst n st
          let (a, b, st) ← checkLogical ops cst a b st
          logTermLoop ops env cst n { a with val := b.val } st
        else logTermLoop ops env cst n { a with val := ops.no } st
      else do
        let (b, st) ← parseRel ops env cst n ((st.emit .dup).stub.emit .pop)
        let (a, _, st) ← checkLogical ops cst a b st
        logTermLoop ops env cst n a (st.fixup (.gotoIfNot st.code.length))
    else .ok (a, st)

/-- `parseLogicalExpr` (umka_expr.c:3033-3074) -/
def parseLogExpr (ops : Ops E V) (env : Env E V σ) (cst : Bool) : Nat → PS V → Except (Err E) (Item V × PS V)
  | 0, _ => .error .fuel
  | n + 1, st => do
    let (a, st) ← parseLogTerm ops env cst n st
    logExprLoop ops env cst n a st

/-- the loop of `parseLogicalExpr`, with `genShortCircuitProlog`, `genShortCircuitEpilog` (umka_gen.c:1090-1105) -/
def logExprLoop (ops : Ops E V) (env : Env E V σ) (cst : Bool) :
    Nat → Item V → PS V → Except (Err E) (Item V × PS V)
  | 0, _, _ => .error .fuel
  | n + 1, a, st =>
    if st.toks.head? = some .oror then
      let st := st.skip
      if cst then
        if ops.truth a.val = false then do
          let (b, st) ← parseLogTerm ops env cst n st
          let (a, b, st) ← checkLogical ops cst a b st
          logExprLoop ops env cst n { a with val := b.val } st
        else logExprLoop ops env cst n { a with val := ops.yes } st
      else do
        let (b, st) ← parseLogTerm ops env cst n ((st.emit .dup).stub.emit .pop)
        let (a, _, st) ← checkLogical ops cst a b st
        logExprLoop ops env cst n a (st.fixup (.gotoIf st.code.length))
    else .ok (a, st)

/-- `parseExpr` (umka_expr.c:3077-3167), with `genIfCondEpilog`, `genElseProlog`, `genIfElseEpilog`
(umka_gen.c:966-990) -/
def parseExpr (ops : Ops E V) (env : Env E V σ) (cst : Bool) : Nat → PS V → Except (Err E) (Item V × PS V)
  | 0, _ => .error .fuel
  | n + 1, st => do
    let (c, st) ← parseLogExpr ops env cst n st
    if st.toks.head? = some .question then
      if typeCompatible .bool c.ty = false then throw .incompatible
      let st := st.skip
      if cst then
        let (a, st) ← parseExpr ops env cst n st
        let st ← st.eat .colon
        let (b, st) ← parseExpr ops env cst n st
        let (b, st) ← implicitConv ops cst false false a.ty b st
        if typeCompatible a.ty b.ty = false then throw .incompatible
        return ({ a with val := if ops.truth c.val then a.val else b.val }, st)
      else
        let (a, st) ← parseExpr ops env cst n st.stub
        let st ← st.eat .colon
        let st := (st.fixup (.gotoIfNot (st.code.length + 1))).stub
        let (b, st) ← parseExpr ops env cst n st
        let (b, st) ← implicitConv ops cst false false a.ty b st
        if typeCompatible a.ty b.ty = false then throw .incompatible
        return (a, st.fixup (.goto st.code.length))
    else return (c, st)

end

/-- `parseExpr` for an expression that is evaluated at run time, after `code` has been emitted: its type,
the tokens that are left, and the code. -/
def compile (ops : Ops E V) (env : Env E V σ) (code : List (Instr V)) (toks : List Tok) :
    Except (Err E) (Ty × List Tok × List (Instr V)) := do
  let (a, st) ← parseExpr ops env false (10 * toks.length + 10) ⟨toks, code, []⟩
  return (a.ty, st.toks, st.code)

/-- `parseExpr` for a constant expression: its type, the tokens that are left, and the value. -/
def constant (ops : Ops E V) (env : Env E V σ) (toks : List Tok) : Except (Err E) (Ty × List Tok × V) := do
  let (a, st) ← parseExpr ops env true (10 * toks.length + 10) ⟨toks, [], []⟩
  return (a.ty, st.toks, a.val)

end Umka.Expr
