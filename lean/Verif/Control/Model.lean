import Verif.Control.Spec
/-!
# Control statements: model of the code generator and of the virtual machine

The generator appends instructions, leaves stubs for forward jumps, keeps their positions on a
stack (or, for `break`, `continue` and `return`, in tables) and fills them in later.  The parser
functions that drive it are modelled on the syntax tree.

Simplified: straight-line code (evaluation of operands, assignments, release of variables at the end
of a block) is one opaque instruction; the peephole optimizer is modelled in `Verif/Peephole`;
functions inside expressions are opaque.
-/

namespace Umka.Control
open Spec

/-- Instructions (umka_vm.h:31-77) as far as control statements use them. -/
inductive Instr (σ : Type) where
  /-- `OP_NOP`: a stub; the machine refuses to execute it -/
  | nop
  /-- straight-line code that leaves the stack as it is -/
  | act (f : σ → Option σ)
  /-- straight-line code that pushes a value -/
  | eval (f : σ → Option (σ × Int))
  /-- straight-line code that replaces the value on top of the stack -/
  | unary (f : σ → Int → Option (σ × Int))
  /-- straight-line code that replaces the two values on top of the stack -/
  | binary (f : σ → Int → Int → Option (σ × Int))
  /-- straight-line code that takes a value from the stack -/
  | take (f : σ → Int → Option σ)
  /-- `OP_PUSH` -/
  | push (k : Int)
  /-- `OP_PUSH_REG` for `REG_SWITCH_EXPR` -/
  | pushReg
  /-- `OP_POP_REG` for `REG_SWITCH_EXPR` -/
  | popReg
  /-- `OP_BINARY` with `==` -/
  | eq
  /-- `OP_BINARY` with `!=` -/
  | ne
  /-- `OP_ASSERT_TYPE` -/
  | assertType (conv : σ → Int → Int)
  | dup
  | pop
  | goto (dest : Nat)
  | gotoIf (dest : Nat)
  | gotoIfNot (dest : Nat)
  | enterFrame
  | leaveFrame
  /-- `OP_RETURN` -/
  | ret

/-! ## The machine -/

/-- `Fiber`: `ip`, the operand stack above the frame (top first), `reg[REG_SWITCH_EXPR]`, and
everything else.  `base` is the stack as it was when the frame was entered. -/
structure Cfg (σ : Type) where
  ip : Nat
  stack : List Int
  reg : Int
  base : List Int
  data : σ

inductive StepRes (σ : Type) where
  | next (c : Cfg σ)
  /-- run-time error of the program -/
  | error
  /-- the function returned -/
  | returned (c : Cfg σ)
  /-- illegal instruction, stack underflow, jump outside the code -/
  | stuck

def ofOption {σ α : Type} (o : Option α) (k : α → StepRes σ) : StepRes σ :=
  match o with
  | none => .error
  | some a => k a

/-- One iteration of `vmLoop` (umka_vm.c:4069-4150), with `doGoto`, `doGotoIf`, `doGotoIfNot`
(3809-3831), `doPushReg`, `doPopReg`, `doDup`, `doPop` (3149-3186), `doAssertType` (3724-3731),
`doEnterFrame`, `doLeaveFrame` (4004-4053).  The stack is not bounded here. -/
def step {σ : Type} (code : Nat → Option (Instr σ)) (c : Cfg σ) : StepRes σ :=
  match code c.ip with
  | none => .stuck
  | some i =>
    match i, c.stack with
    | .nop, _ => .stuck
    | .act f, _ => ofOption (f c.data) fun s => .next { c with ip := c.ip + 1, data := s }
    | .eval f, st => ofOption (f c.data) fun (s, v) =>
        .next { c with ip := c.ip + 1, data := s, stack := v :: st }
    | .unary f, v :: st => ofOption (f c.data v) fun (s, v) =>
        .next { c with ip := c.ip + 1, data := s, stack := v :: st }
    | .binary f, w :: v :: st => ofOption (f c.data v w) fun (s, v) =>
        .next { c with ip := c.ip + 1, data := s, stack := v :: st }
    | .take f, v :: st => ofOption (f c.data v) fun s =>
        .next { c with ip := c.ip + 1, data := s, stack := st }
    | .push k, st => .next { c with ip := c.ip + 1, stack := k :: st }
    | .pushReg, st => .next { c with ip := c.ip + 1, stack := c.reg :: st }
    | .popReg, v :: st => .next { c with ip := c.ip + 1, stack := st, reg := v }
    | .eq, w :: v :: st => .next { c with ip := c.ip + 1, stack := (if v = w then 1 else 0) :: st }
    | .ne, w :: v :: st => .next { c with ip := c.ip + 1, stack := (if v ≠ w then 1 else 0) :: st }
    | .assertType conv, v :: st => .next { c with ip := c.ip + 1, stack := conv c.data v :: st }
    | .dup, v :: st => .next { c with ip := c.ip + 1, stack := v :: v :: st }
    | .pop, _ :: st => .next { c with ip := c.ip + 1, stack := st }
    | .goto d, _ => .next { c with ip := d }
    | .gotoIf d, v :: st => .next { c with ip := if v ≠ 0 then d else c.ip + 1, stack := st }
    | .gotoIfNot d, v :: st => .next { c with ip := if v ≠ 0 then c.ip + 1 else d, stack := st }
    | .enterFrame, st => .next { c with ip := c.ip + 1, base := st }
    | .leaveFrame, _ => .next { c with ip := c.ip + 1, stack := c.base }
    | .ret, _ => .returned c
    | _, _ => .stuck

/-! ## The generator -/

inductive Err where
  | noLoopToBreak | noLoopToContinue | tooManyGotos | mustReturn
  deriving DecidableEq, Repr

inductive Fault where
  | err (e : Err)
  /-- write beyond `gen->stack` -/
  | ub
  deriving DecidableEq, Repr

abbrev M (α : Type) := Except Fault α

/-- `CodeGen` (umka_gen.h:31-43); `gen->ip` is the length of the code, the stack has its top first;
`breaks`, `continues` are `NULL` outside loops. -/
structure Gen (σ : Type) where
  code : List (Instr σ)
  stack : List Nat
  breaks : Option (List Nat)
  continues : Option (List Nat)
  returns : List Nat

variable {σ : Type}

/-- `gen->ip`. -/
def Gen.ip (g : Gen σ) : Nat := g.code.length

/-- `genAddInstr` (umka_gen.c:60-87) without the optimizer. -/
def emit (g : Gen σ) (i : Instr σ) : Gen σ := { g with code := g.code ++ [i] }

/-- `genSavePos` (umka_gen.c:926-930): `gen->stack` has `MAX_BLOCK_NESTING` = 100 items and is not
checked. -/
def savePos (g : Gen σ) : M (Gen σ) :=
  if g.stack.length < 100 then .ok { g with stack := g.ip :: g.stack } else .error .ub

/-- `genRestorePos` (umka_gen.c:933-936). -/
def restorePos (g : Gen σ) : M (Nat × Gen σ) :=
  match g.stack with
  | p :: st => .ok (p, { g with stack := st })
  | [] => .error .ub

/-- `genGoFromTo`, `genGoFromToIf`, `genGoFromToIfNot` (umka_gen.c:939-963): the instruction at
`start` is replaced. -/
def patch (g : Gen σ) (start : Nat) (i : Instr σ) : Gen σ := { g with code := g.code.set start i }

/-- `genIfCondEpilog` (umka_gen.c:966-970), and `genWhileCondEpilog` (1040-1043). -/
def ifCondEpilog (g : Gen σ) : M (Gen σ) := do
  let g ← savePos g
  return emit g .nop

/-- `genIfEpilog` (umka_gen.c:973-976). -/
def ifEpilog (g : Gen σ) : M (Gen σ) := do
  let (p, g) ← restorePos g
  return patch g p (.gotoIfNot g.ip)

/-- `genElseProlog` (umka_gen.c:979-984). -/
def elseProlog (g : Gen σ) : M (Gen σ) := do
  let (p, g) ← restorePos g
  let g := patch g p (.gotoIfNot (g.ip + 1))
  let g ← savePos g
  return emit g .nop

/-- `genIfElseEpilog` (umka_gen.c:987-990). -/
def ifElseEpilog (g : Gen σ) : M (Gen σ) := do
  let (p, g) ← restorePos g
  return patch g p (.goto g.ip)

/-- `genCaseConstantCheck` (umka_gen.c:999-1006). -/
def caseConstantCheck (g : Gen σ) (k : Int) : M (Gen σ) := do
  let g := emit (emit (emit g .pushReg) (.push k)) .eq
  let g ← savePos g
  return emit g .nop

/-- The loop of `parseExprCase` over the constants (umka_stmt.c:527-548). -/
def caseConstants (g : Gen σ) : List Int → M (Gen σ)
  | [] => .ok g
  | k :: ks => do caseConstants (← caseConstantCheck g k) ks

/-- The loop of `genCaseBlockProlog` (umka_gen.c:1011-1012). -/
def patchCases (g : Gen σ) : Nat → M (Gen σ)
  | 0 => .ok g
  | n + 1 => do
    let (p, g) ← restorePos g
    patchCases (patch g p (.gotoIf (g.ip + 1))) n

/-- `genCaseBlockProlog` (umka_gen.c:1009-1016). -/
def caseBlockProlog (g : Gen σ) (numConstants : Nat) : M (Gen σ) := do
  let g ← patchCases g numConstants
  let g ← savePos g
  return emit g .nop

/-- `genCaseBlockEpilog` (umka_gen.c:1019-1024). -/
def caseBlockEpilog (g : Gen σ) : M (Gen σ) := do
  let (p, g) ← restorePos g
  let g := patch g p (.goto (g.ip + 1))
  let g ← savePos g
  return emit g .nop

/-- `genSwitchEpilog` (umka_gen.c:1027-1031). -/
def switchEpilog (g : Gen σ) : Nat → M (Gen σ)
  | 0 => .ok g
  | n + 1 => do
    let (p, g) ← restorePos g
    switchEpilog (patch g p (.goto g.ip)) n

/-- `genWhileEpilog` (umka_gen.c:1046-1050). -/
def whileEpilog (g : Gen σ) : M (Gen σ) := do
  let (p, g) ← restorePos g
  let g := patch g p (.gotoIfNot (g.ip + 1))
  let (q, g) ← restorePos g
  return emit g (.goto q)

/-- `genForCondEpilog` (umka_gen.c:1059-1064). -/
def forCondEpilog (g : Gen σ) : M (Gen σ) := do
  let g ← savePos g
  return emit (emit g .nop) .nop

/-- `genForPostStmtEpilog` (umka_gen.c:1067-1076). -/
def forPostStmtEpilog (g : Gen σ) : M (Gen σ) := do
  let (condEpilog, g) ← restorePos g
  let (condProlog, g) ← restorePos g
  let g := emit g (.goto condProlog)
  let g := patch g condEpilog (.gotoIf g.ip)
  return { g with stack := condEpilog :: g.stack }

/-- `genForEpilog` (umka_gen.c:1079-1085). -/
def forEpilog (g : Gen σ) : M (Gen σ) := do
  let (condEpilog, g) ← restorePos g
  let g := emit g (.goto (condEpilog + 2))
  return patch g (condEpilog + 1) (.goto g.ip)

/-- `genShortCircuitProlog` (umka_gen.c:1090-1096). -/
def shortCircuitProlog (g : Gen σ) : M (Gen σ) := do
  let g ← savePos (emit g .dup)
  return emit (emit g .nop) .pop

/-- `genShortCircuitEpilog` (umka_gen.c:1099-1105). -/
def shortCircuitEpilog (g : Gen σ) (isAnd : Bool) : M (Gen σ) := do
  let (p, g) ← restorePos g
  return patch g p (if isAnd then .gotoIfNot g.ip else .gotoIf g.ip)

/-- `gotos->start[gotos->numGotos++] = gen->ip` with the check before it in `genGotosAddStub`
(umka_gen.c:1154-1161): the table has `MAX_GOTOS` = 100 items. -/
def addGoto (l : List Nat) (ip : Nat) : M (List Nat) :=
  if l.length ≥ 100 then .error (.err .tooManyGotos)
  else if l.length < 100 then .ok (l ++ [ip])
  else .error .ub

/-- `genGotosAddStub` for `breaks`, with the check of `parseBreakStmt` (umka_stmt.c:1131-1142). -/
def breakStub (g : Gen σ) : M (Gen σ) :=
  match g.breaks with
  | none => .error (.err .noLoopToBreak)
  | some l => do
    let l ← addGoto l g.ip
    return emit { g with breaks := some l } .nop

/-- The same for `continues` (`parseContinueStmt`, umka_stmt.c:1145-1156). -/
def continueStub (g : Gen σ) : M (Gen σ) :=
  match g.continues with
  | none => .error (.err .noLoopToContinue)
  | some l => do
    let l ← addGoto l g.ip
    return emit { g with continues := some l } .nop

/-- The same for `returns` (`parseReturnStmt`, umka_stmt.c:1159-1208). -/
def returnStub (g : Gen σ) : M (Gen σ) := do
  let l ← addGoto g.returns g.ip
  return emit { g with returns := l } .nop

/-- `genGotosEpilog` (umka_gen.c:1164-1168). -/
def gotosEpilog (g : Gen σ) : List Nat → Gen σ
  | [] => g
  | p :: ps => gotosEpilog (patch g p (.goto g.ip)) ps

/-! ## The parser -/

/-- Expressions: `parseRelation` ... `parseExpr` (umka_expr.c:3003-3064) for `&&` and `||`. -/
def genExpr (g : Gen σ) : Expr σ → M (Gen σ)
  | .atom f => .ok (emit g (.eval f))
  | .unary f e => do return emit (← genExpr g e) (.unary f)
  | .binary f a b => do
    let g ← genExpr g a
    let g ← genExpr g b
    return emit g (.binary f)
  | .and a b => do
    let g ← genExpr g a
    let g ← shortCircuitProlog g
    let g ← genExpr g b
    shortCircuitEpilog g true
  | .or a b => do
    let g ← genExpr g a
    let g ← shortCircuitProlog g
    let g ← genExpr g b
    shortCircuitEpilog g false

mutual
/-- `parseStmt` (umka_stmt.c:1211-1238), `parseStmtList` (1241-1251), `parseIfStmt` (482-525),
`parseExprSwitchStmt` (657-703), `parseTypeSwitchStmt` (706-762), `parseForStmt` (1075-1128) with
`parseForHeader` (788-870). -/
def genStmt (g : Gen σ) : Stmt σ → M (Gen σ)
  | .act f => .ok (emit g (.act f))
  | .use e f => do return emit (← genExpr g e) (.take f)
  | .skip => .ok g
  | .seq a b => do genStmt (← genStmt g a) b
  | .ifThen c a => do
    let g ← genExpr g c
    let g ← ifCondEpilog g
    let g ← genStmt g a
    ifEpilog g
  | .ifElse c a b => do
    let g ← genExpr g c
    let g ← ifCondEpilog g
    let g ← genStmt g a
    let g ← elseProlog g
    let g ← genStmt g b
    ifElseEpilog g
  | .switch e cs d => do
    let g ← genExpr g e
    let g := emit g .popReg
    let (g, numCases) ← genCases g cs
    let g ← genStmt g d
    switchEpilog g numCases
  | .typeSwitch e cs d => do
    let g ← genExpr g e
    let (g, numCases) ← genTypeCases g cs
    let g ← genStmt g d
    let g ← switchEpilog g numCases
    return emit g .pop
  | .loop c body post => do
    let outerBreaks := g.breaks
    let outerContinues := g.continues
    let g := { g with breaks := some [], continues := some [] }
    let g ← savePos g
    let g ← genExpr g c
    let g ← ifCondEpilog g
    let g ← genStmt g body
    let g := { gotosEpilog g (g.continues.getD []) with continues := outerContinues }
    let g := match post with
      | some f => emit g (.act f)
      | none => g
    let g ← whileEpilog g
    return { gotosEpilog g (g.breaks.getD []) with breaks := outerBreaks }
  | .forPost c p f body => do
    let outerBreaks := g.breaks
    let outerContinues := g.continues
    let g := { g with breaks := some [], continues := some [] }
    let g ← savePos g
    let g ← genExpr g c
    let g ← forCondEpilog g
    let g := emit (← genExpr g p) (.take f)
    let g ← forPostStmtEpilog g
    let g ← genStmt g body
    let g := { gotosEpilog g (g.continues.getD []) with continues := outerContinues }
    let g ← forEpilog g
    return { gotosEpilog g (g.breaks.getD []) with breaks := outerBreaks }
  | .brk => breakStub g
  | .cont => continueStub g
  | .ret => returnStub g
/-- `parseExprCase` (umka_stmt.c:520-569) for each case; counts the cases. -/
def genCases (g : Gen σ) : Cases σ → M (Gen σ × Nat)
  | .nil => .ok (g, 0)
  | .cons ks body rest => do
    let g ← caseConstants g ks
    let g ← caseBlockProlog g ks.length
    let g ← genStmt g body
    let g ← caseBlockEpilog g
    let (g, n) ← genCases g rest
    return (g, n + 1)
/-- `parseTypeCase` (umka_stmt.c:572-628) for each case; counts the cases. -/
def genTypeCases (g : Gen σ) : TypeCases σ → M (Gen σ × Nat)
  | .nil => .ok (g, 0)
  | .cons conv bind body rest => do
    let g := emit (emit g .dup) (.assertType conv)
    let g := emit (emit (emit g .dup) (.push 0)) .ne
    let g ← ifCondEpilog g
    let g := emit g (.take bind)
    let g ← genStmt g body
    let g ← elseProlog g
    let g := emit g .pop
    let (g, n) ← genTypeCases g rest
    return (g, n + 1)
end

/-- `parseFnBlock` (umka_stmt.c:1275-1380), with `genEnterFrameStub`, `genLeaveFrameFixup`
(umka_gen.c:1108-1125) and `genReturn`.  Parameters and captured variables are opaque and left out. -/
def genFn (g : Gen σ) (body : Stmt σ) : M (Gen σ) := do
  let outerBreaks := g.breaks
  let outerContinues := g.continues
  let outerReturns := g.returns
  let g ← savePos g
  let g := { emit g .nop with breaks := none, continues := none, returns := [] }
  let g ← genStmt g body
  let g := { gotosEpilog g g.returns with
    returns := outerReturns, continues := outerContinues, breaks := outerBreaks }
  let (p, g) ← restorePos g
  let g := patch g p .enterFrame
  return emit (emit g .leaveFrame) .ret

/-- `blocks.item[blocks.top].hasReturn` after the statements, if it was `flag` before: `parseReturnStmt` (umka_stmt.c:1164) sets it for the innermost
block; `if`, `switch` and `for` have blocks of their own (`blocksEnter`, umka_common.c:528-546), whose flags are lost with them. -/
def hasReturn (flag : Bool) : Stmt σ → Bool
  | .ret => true
  | .seq a b => hasReturn (hasReturn flag a) b
  | .act _ => flag
  | .use _ _ => flag
  | .skip => flag
  | .ifThen _ _ => flag
  | .ifElse _ _ _ => flag
  | .switch _ _ _ => flag
  | .typeSwitch _ _ _ => flag
  | .loop _ _ _ => flag
  | .forPost _ _ _ _ => flag
  | .brk => flag
  | .cont => flag

/-- `parseFnBlock` (umka_stmt.c:1275-1380) with its last check: `void` says that the function has no result. -/
def compileFn (g : Gen σ) (void : Bool) (body : Stmt σ) : M (Gen σ) := do
  let g ← genFn g body
  if !hasReturn false body && !void then throw (.err .mustReturn)
  return g

end Umka.Control
