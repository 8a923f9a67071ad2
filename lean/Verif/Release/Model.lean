/-!
# When variables are released: model

The compiler notes each variable in its list of identifiers and, at the end of a block and at each `break`, `continue`
and `return`, generates an instruction that drops the reference of each variable of the blocks that are left
(`doGarbageCollection…`, `umka_stmt.c:15-49`).  The model is the part of the parser that declares variables, enters and
leaves blocks, and generates these instructions, for all statements and expressions.

The generated code is given as a tree, not as a list of instructions with jumps; that the jumps generated for the control
statements do what the tree says is the subject of the area `Control` (C21).  A variable is denoted by a number; that
different variables of a function lie at different places of the stack frame is C32.

Simplifications.  Expressions and statements are reduced to what matters: temporary variables, declarations and control
flow.  `else if` is treated like `else { if … }`, whose additional block contains no variables.  Where a function's result
is handed over without a temporary variable (`doTryRemoveCopyResultToTempVar`, `umka_expr.c:48-66`), the code that copies
the result into the temporary variable is generated and removed by the compiler; in the model it is not generated.
-/

namespace Umka.Release

mutual

/-- Expressions. -/
inductive Expr
  /-- constants, variables -/
  | leaf
  /-- operands and parameters, one after the other -/
  | seq (a b : Expr)
  /-- a call (or a conversion by a built-in function) whose result is copied to a temporary variable
  (`doCopyResultToTempVar`).  `gc`: the type of the result contains references.  `taken`: the result is assigned, passed
  or returned at once, so that the temporary variable is not needed -/
  | call (args : Expr) (gc taken : Bool)
  /-- array, structure and map literals and expression lists: a temporary variable, set to zero, then filled
  (`umka_expr.c:2032`, `2211`, `3236`) -/
  | literal (gc : Bool) (items : Expr)
  /-- `a && b`, `a || b` (`umka_expr.c:3012-3026`) -/
  | shortCircuit (a b : Expr)
  /-- `c ? a : b` (`umka_expr.c:3104-3158`) -/
  | ternary (c a b : Expr) (gc : Bool)
  /-- the conversion of a dynamic array, item by item (`umka_expr.c:273-351`) -/
  | convert (e : Expr) (gc : Bool) (item : Expr)
  /-- a function literal (`umka_expr.c:2284-2366`): a temporary variable for the closure, another for the captured
  variables (part of `captured`), then the function, with its parameters and captured variables -/
  | closure (gc : Bool) (captured : Expr) (params upvalues : List Bool) (body : Stmt)

/-- Statements. -/
inductive Stmt
  | skip
  | seq (a b : Stmt)
  | expr (e : Expr)
  /-- the declaration of some variables; for each, does its type contain references? -/
  | decl (e : Expr) (vars : List Bool)
  /-- `{ s }`, and the blocks around `if` and `switch` statements -/
  | block (s : Stmt)
  /-- one of two statements is executed, in a block of its own -/
  | choose (a b : Stmt)
  /-- `for init; cond; post { body }` (`umka_stmt.c:788-868`, `1075-1131`) -/
  | for_ (init : Stmt) (cond : Expr) (post body : Stmt)
  | brk
  | cont
  | ret (e : Expr)

end

/-- `if init; c { a } else { b }` (`umka_stmt.c:482-528`). -/
def Stmt.ifElse (init : Stmt) (c : Expr) (a b : Stmt) : Stmt := .block (.seq init (.seq (.expr c) (.choose a b)))

/-- `switch init; e { case: s1 … }` (`umka_stmt.c:657-706`, `710-766`).  Each case is a block; the variable of a type switch
is declared in it. -/
def Stmt.switch (init : Stmt) (e : Expr) (cases : List Stmt) : Stmt :=
  .block (.seq init (.seq (.expr e) (cases.foldr .choose .skip)))

/-- `for i, x in e { body }` (`umka_stmt.c:873-1070`): the variables `#len`, `#collection`, the index, the key, `#keys` and
the item are declared before the loop; in the loop they are assigned to only. -/
def Stmt.forIn (e : Expr) (vars : List Bool) (body : Stmt) : Stmt := .for_ (.decl e vars) .leaf .skip body

/-- The generated code. -/
inductive Code
  | nop
  | seq (a b : Code)
  /-- a reference is stored in variable `x`, whose old contents are not looked at (or it is set to zero) -/
  | own (x : Nat)
  /-- the reference held by variable `x` is dropped (`OP_REF_CNT_LOCAL`, `--`) -/
  | drop (x : Nat)
  | choose (a b : Code)
  /-- `cond` is executed before each iteration, `post` after it -/
  | loop (cond body post : Code)
  | brk
  | cont
  | ret
  /-- the body of a function; `return` leads to `tail` -/
  | fn (body tail : Code)
  /-- a nested function, jumped over -/
  | closure (c : Code)

/-- The fields of `Ident` that matter here. -/
structure Id where
  var : Nat
  block : Nat
  gc : Bool
  temp : Bool
  used : Bool

/-- The state of the compiler: identifiers (the last first), numbers of the open blocks (the innermost first),
`blocks->numBlocks`, the number of the next variable, and the blocks of `gen->breaks`, `gen->continues` and
`gen->returns`. -/
structure Env where
  idents : List Id
  blocks : List Nat
  numBlocks : Nat
  nextVar : Nat
  brk : Option Nat
  cont : Option Nat
  ret : Nat

/-- `blocksCurrent`, `umka_common.c:562`. -/
def Env.cur (E : Env) : Nat := E.blocks.headD 0

/-- The condition of `doGarbageCollectionAt`, `umka_stmt.c:26`. -/
def Id.released (i : Id) : Bool := i.gc && (!i.temp || i.used)

/-- `doGarbageCollectionAt`, `umka_stmt.c:15-34`: the variables that are dropped. -/
def gcAt (block : Nat) : List Id → Bool → List Nat
  | [], _ => []
  | i :: is, blockFound =>
    if i.block = block then (if i.released then [i.var] else []) ++ gcAt block is true
    else if blockFound then [] else gcAt block is false

/-- `doGarbageCollectionDownToBlock`, `umka_stmt.c:44-49`.  The outermost block is never left. -/
def gcDown (E : Env) (block : Nat) : List Nat :=
  (E.blocks.dropLast.takeWhile (· ≠ block)).flatMap fun b => gcAt b E.idents false

/-- `identFree`, `umka_ident.c:31-45`. -/
def identFree (block : Nat) (idents : List Id) : List Id := idents.dropWhile (·.block == block)

/-- `blocksEnter`, `umka_common.c:528-545`. -/
def enter (E : Env) : Env := { E with blocks := E.numBlocks :: E.blocks, numBlocks := E.numBlocks + 1 }

/-- `identFree` and `blocksLeave` (`umka_stmt.c:1267-1268`). -/
def leave (E : Env) : Env := { E with idents := identFree E.cur E.idents, blocks := E.blocks.tail }

/-- `identAdd`, `umka_ident.c:191-252`, for a variable. -/
def addId (E : Env) (gc temp used : Bool) : Env :=
  { E with idents := ⟨E.nextVar, E.cur, gc, temp, used⟩ :: E.idents, nextVar := E.nextVar + 1 }

/-- `identMoveBefore`, `umka_ident.c:48-64`; `next` is the variable of the following identifier (which exists, or is
`none`: the end of the list). -/
def insertBefore (moved : Id) (next : Option Nat) : List Id → List Id
  | [] => [moved]
  | i :: is => if some i.var = next then moved :: i :: is else i :: insertBefore moved next is

/-- The variable for the result of `c ? a : b`, declared in the enclosing block (`umka_expr.c:3119-3122`). -/
def addOutside (E : Env) (next : Option Nat) : Env :=
  let outer := addId { E with blocks := E.blocks.tail } true true true
  match outer.idents with
  | [] => E
  | moved :: rest => { outer with idents := insertBefore moved next rest, blocks := E.blocks }

/-- Code that stores a reference in the last declared variable, if it can hold one. -/
def ownIf (gc : Bool) (x : Nat) : Code := if gc then .own x else .nop

/-- Code that drops the references of some variables. -/
def drops (xs : List Nat) : Code := xs.foldr (fun x c => .seq (.drop x) c) .nop

/-- `doGarbageCollection`, `umka_stmt.c:37-41`. -/
def gc (E : Env) : Code := drops (gcAt E.cur E.idents false)

/-- The declaration of variables, one after the other. -/
def declare : List Bool → Env → Code × Env
  | [], E => (.nop, E)
  | g :: gs, E =>
    let (c, E') := declare gs (addId E g false false)
    (.seq (ownIf g E.nextVar) c, E')

mutual

/-- `parseExpr` and below.  Fails only if a function literal contains a misplaced `break` or `continue`. -/
def compileExpr : Expr → Env → Option (Code × Env)
  | .leaf, E => some (.nop, E)
  | .seq a b, E => do
    let (ca, E) ← compileExpr a E
    let (cb, E) ← compileExpr b E
    return (.seq ca cb, E)
  | .call args g taken, E => do
    let (ca, E) ← compileExpr args E
    return (.seq ca (if taken then .nop else ownIf g E.nextVar), addId E g true (!taken))
  | .literal g items, E => do
    let (ci, E') ← compileExpr items (addId E g true true)
    return (.seq (ownIf g E.nextVar) ci, E')
  | .shortCircuit a b, E => do
    let (ca, E) ← compileExpr a E
    let (cb, E) ← compileExpr b (enter E)
    return (.seq ca (.choose (.seq cb (gc E)) .nop), leave E)
  | .ternary c a b g, E => do
    let (cc, E) ← compileExpr c E
    let next := E.idents.head?.map (·.var)
    let (ca, E) ← compileExpr a (enter E)
    let t := E.nextVar
    let E := if g then addOutside E next else E
    let ca := Code.seq (.seq ca (ownIf g t)) (gc E)
    let E := leave E
    let (cb, E) ← compileExpr b (enter E)
    let cb := Code.seq (.seq cb (ownIf g t)) (gc E)
    return (.seq cc (.choose ca cb), leave E)
  | .convert e g item, E => do
    let (ce, E) ← compileExpr e E
    let t := E.nextVar
    let (ci, E) ← compileExpr item (enter (addId E g true true))
    return (.seq (.seq ce (ownIf g t)) (.loop .nop (.seq ci (gc E)) .nop), leave E)
  | .closure g captured params upvalues body, E => do
    let t := E.nextVar
    let (cc, E) ← compileExpr captured (addId E g true true)
    -- the constant for the entry point (`identAddTempConst`)
    let E := addId E false true true
    -- `parseFnBlock`, `umka_stmt.c:1275-1380`
    let F := enter E
    let (cp, F) := declare params F
    let (cu, F) := declare upvalues F
    let F := { F with brk := none, cont := none, ret := F.cur }
    let (cb, F) ← compileStmt body (enter F)
    let cb := Code.seq cb (gc F)
    let F := leave F
    let f := Code.seq (.seq cp cu) (.fn cb (gc F))
    let F := { leave F with brk := E.brk, cont := E.cont, ret := E.ret }
    return (.seq (.seq (ownIf g t) cc) (.closure f), F)

/-- `parseStmt` and below.  Fails at a misplaced `break` or `continue`. -/
def compileStmt : Stmt → Env → Option (Code × Env)
  | .skip, E => some (.nop, E)
  | .seq a b, E => do
    let (ca, E) ← compileStmt a E
    let (cb, E) ← compileStmt b E
    return (.seq ca cb, E)
  | .expr e, E => compileExpr e E
  | .decl e vars, E => do
    let (ce, E) ← compileExpr e E
    let (cv, E) := declare vars E
    return (.seq ce cv, E)
  | .block s, E => do
    let (c, E) ← compileStmt s (enter E)
    return (.seq c (gc E), leave E)
  | .choose a b, E => do
    let (ca, E) ← compileStmt a (enter E)
    let ca := Code.seq ca (gc E)
    let (cb, E) ← compileStmt b (enter (leave E))
    let cb := Code.seq cb (gc E)
    return (.choose ca cb, leave E)
  | .for_ init cond post body, E => do
    let outerBrk := E.brk
    let outerCont := E.cont
    let E := enter E
    -- the header contains no `break` or `continue`
    let (ci, E) ← compileStmt init { E with brk := none, cont := none }
    let (cc, E) ← compileExpr cond (enter E)
    let cc := Code.seq cc (gc E)
    let E := leave E
    let (cp, E) ← compileStmt post (enter E)
    let cp := Code.seq cp (gc E)
    let E := leave E
    let (cb, E) ← compileStmt body (enter { E with brk := some E.cur, cont := some E.cur })
    let cb := Code.seq cb (gc E)
    let E := leave E
    return (.seq (.seq ci (.loop cc cb cp)) (gc E), { leave E with brk := outerBrk, cont := outerCont })
  | .brk, E =>
    match E.brk with
    | none => none
    | some b => some (.seq (drops (gcDown E b)) .brk, E)
  | .cont, E =>
    match E.cont with
    | none => none
    | some b => some (.seq (drops (gcDown E b)) .cont, E)
  | .ret e, E => do
    let (ce, E) ← compileExpr e E
    return (.seq ce (.seq (drops (gcDown E E.ret)) .ret), E)

end

/-- A function declared at the top level: `parseFnBlock`, `umka_stmt.c:1275-1380`, and, with an empty body, the code for an
external function (`doResolveExtern`, `umka_stmt.c:93-126`). -/
def compileFn (params : List Bool) (body : Stmt) (E : Env) : Option (Code × Env) := do
  let F := enter E
  let (cp, F) := declare params F
  let F := { F with brk := none, cont := none, ret := F.cur }
  let (cb, F) ← compileStmt body (enter F)
  let cb := Code.seq cb (gc F)
  let F := leave F
  return (.seq cp (.fn cb (gc F)), { leave F with brk := E.brk, cont := E.cont, ret := E.ret })

/-- The compiler at the start: the outermost block. -/
def init : Env := ⟨[], [0], 1, 0, none, none, 0⟩

/-- A program: global variables and functions. -/
inductive Item
  | global (gc : Bool)
  | fn (params : List Bool) (body : Stmt)

/-- The declarations of a program (`parseModule`, `umka_decl.c:902-917`): the functions, and the initialisation of the
global variables (done by the compiler itself, `umka_decl.c:641-715`). -/
def compileItems : List Item → Env → Option (List Code × Code × Env)
  | [], E => some ([], .nop, E)
  | .global g :: is, E => do
    let (cs, start, E') ← compileItems is (addId E g false false)
    return (cs, .seq (ownIf g E.nextVar) start, E')
  | .fn params body :: is, E => do
    let (c, E) ← compileFn params body E
    let (cs, start, E) ← compileItems is E
    return (c :: cs, start, E)

/-- A program: its functions, the initialisation of its global variables and the code executed at its end
(`umka_decl.c:934-938`, `vmCleanup`, `umka_vm.c:4200-4207`). -/
def compile (items : List Item) : Option (List Code × Code × Code) := do
  let (cs, start, E) ← compileItems items init
  return (cs, start, gc E)

end Umka.Release
