import Verif.Peephole.Model
/-!
# Copies of function results: model of the code

The result of a call (or of a conversion, a concatenation and so on) is copied to a temporary variable, which keeps the
result alive until the end of the block and drops its reference there (`doCopyResultToTempVar`).  If the result is assigned,
passed or returned at once, then its reference is handed over: the three instructions that made the copy are taken back,
and the temporary variable is marked as not used (`doTryRemoveCopyResultToTempVar`).  The generator knows by a *notification*
that nothing was generated since.

The model has the notification, the temporary variables and blocks, on top of the generator of `Verif/Peephole`.
A variable is a place in the list of its block; pointers to identifiers are numbers that are never used twice, so that a
pointer to a freed identifier is recognized.

Simplified: one function name space; names, modules and debug information are left out; instructions without rules are
`Instr.other`, numbered by `Ops`.
-/

namespace Umka.ResultCopy
open Umka.Peephole (Instr Item CItem Gen Env Ty Kind R Tok)

/-- Errors at compile time. -/
inductive Err
  | gen (e : Peephole.Err)
  /-- "Temporary variable must be local" -/
  | notLocal
  /-- "Stack frame is not found" -/
  | noFrame
  /-- "Stack overflow" -/
  | stackOverflow
  /-- "No block to leave" -/
  | noBlock
  /-- "Result copy optimization failed" -/
  | resultCopy
  deriving DecidableEq

/-- The outcome of a function of the compiler.  `ub`: undefined behaviour of the C program. -/
inductive Res (α : Type)
  | ok (a : α) | err (e : Err) | ub

def Res.bind {α β : Type} : Res α → (α → Res β) → Res β
  | .ok a, f => f a
  | .err e, _ => .err e
  | .ub, _ => .ub

/-- Outcomes of the generator. -/
def ofR {α : Type} : R α → Res α
  | .ok a => .ok a
  | .err e => .err (.gen e)
  | .ub => .ub

/-- `Ident`, `umka_ident.h:21-38`: the fields that matter here, and the address of the identifier (`id`). -/
structure Ident where
  id : Nat
  offset : Int
  /-- `isGarbageCollected` -/
  gc : Bool
  /-- `isTemporary` -/
  temp : Bool
  /-- `isUsed` -/
  used : Bool
  ty : Ty

/-- `BlockStackSlot`, `umka_common.h:122-130`, with the identifiers of the block, the last one first.  `frame`: the
`localVarSize` of a function. -/
structure Block where
  frame : Option Nat
  idents : List Ident

/-- `CodeGen`, `Idents` and `Blocks`.  `note` is `lastNotification`: the `ip` for which a result copy was notified.
`blocks`: the innermost first, the outermost is the one of global variables.  `last` is `lastTempVarForResult`. -/
structure State where
  g : Gen
  note : Option Nat
  blocks : List Block
  last : Option Nat
  nextId : Nat

/-- Numbers of the instructions without rules: `OP_REF_CNT_ASSIGN`, the same with `TOK_MINUSMINUS`, `OP_REF_CNT_LOCAL` and
`OP_REF_CNT_GLOBAL`. -/
structure Ops where
  refCntAssign : Ty → Nat
  leftRefCntAssign : Ty → Nat
  refCntVar : Ident → Nat

/-- A type as a result of a call: what reference counting sees, its kind, size and alignment. -/
structure RType where
  ty : Ty
  kind : Kind
  size : Nat
  alignment : Nat

variable {ω : Type}

/-- Does a generator function end the notification?  `genAddInstr`, `genRemoveInstr` and all rules call `genUnnotify`
(`umka_gen.c:77`, `84`, `116`-`498`).  Counting references of a type without any generates nothing (`umka_gen.c:679`).
A position that is saved (`genSavePos`, `umka_gen.c:926-930`) leaves the notification alone; the fixup of an earlier
jump (`genGoFromTo`) ends it, which makes no difference as both set `lastJump`. -/
def ends : Item → Bool
  | .op (.refCnt _ t) => t.collected
  | .label _ _ => false
  | _ => true

/-- A call of a generator function. -/
def emit (e : Env ω) (st : State) (it : Item) : Res State :=
  (ofR (Peephole.genItem e st.g it)).bind fun g =>
    .ok { st with g := g, note := if ends it then none else st.note }

/-- `align`, `umka_common.h:274-277`. -/
def align (size alignment : Nat) : Nat := (size + (alignment - 1)) / alignment * alignment

/-- `identAllocStack`, `umka_ident.c:313-333`: the innermost function gets a larger frame.  The list of blocks comes without
the outermost. -/
def allocStack (t : RType) : List Block → Res (List Block × Int)
  | [] => .err .noFrame
  | b :: bs =>
    match b.frame with
    | some n =>
      if t.size + n > 2 ^ 31 - 1 then .err .stackOverflow
      else .ok ({ b with frame := some (align (n + t.size) t.alignment) } :: bs, -16 - (align (n + t.size) t.alignment : Nat))
    | none => (allocStack t bs).bind fun (bs, off) => .ok (b :: bs, off)

/-- `identAdd`, `umka_ident.c:191-252`, in the innermost block. -/
def addIdent (st : State) (i : Ident) : State :=
  match st.blocks with
  | [] => st
  | b :: bs => { st with blocks := { b with idents := i :: b.idents } :: bs, nextId := st.nextId + 1 }

/-- `identAllocVar`, `umka_ident.c:336-349`: global variables have no offset. -/
def allocVar (st : State) (t : RType) (temp used : Bool) : Res (State × Int) :=
  match st.blocks.dropLast, st.blocks.getLast? with
  | bs, some glob =>
    if bs.length = 0 then
      .ok (addIdent st ⟨st.nextId, 0, t.ty.collected, temp, used, t.ty⟩, 0)
    else
      (allocStack t bs).bind fun (bs, off) =>
        .ok (addIdent { st with blocks := bs ++ [glob] } ⟨st.nextId, off, t.ty.collected, temp, used, t.ty⟩, off)
  | _, none => .ub

/-- `identAllocTempVar` with `isFuncResult`, `umka_ident.c:352-368`.  Names that begin with `#` count as used
(`umka_ident.c:240`). -/
def allocTempVarForResult (st : State) (t : RType) : Res (State × Int) :=
  (allocVar st t true true).bind fun (st', off) =>
    if st.blocks.length ≤ 1 then .err .notLocal
    else .ok ({ st' with last := some st.nextId }, off)

/-- `genCopyResultToTempVar`, `umka_gen.c:1171-1178`. -/
def genCopyResult (e : Env ω) (st : State) (t : RType) (off : Int) : Res State :=
  (emit e st (.op .dup)).bind fun st =>
    (emit e st (.op (.pushLocalPtr off))).bind fun st =>
      (emit e st (.op (.swapAssign t.kind t.size))).bind fun st =>
        .ok { st with note := some st.g.ip }

/-- `doCopyResultToTempVar`, `umka_expr.c:41-45`. -/
def copyResult (e : Env ω) (st : State) (t : RType) : Res State :=
  (allocTempVarForResult st t).bind fun (st, off) => genCopyResult e st t off

/-- `getPrevInstr`, `umka_gen.c:90-97`: `none` for an instruction before `lastJump`. -/
def prevInstr (g : Gen) (depth : Nat) : Option CItem :=
  if g.ip < g.lastJump + depth then none else g.rcode[depth - 1]?

/-- `genTryRemoveCopyResultToTempVar`, `umka_gen.c:1181-1200`. -/
def genTryRemove (st : State) : State × Int :=
  if st.note = some st.g.ip then
    match prevInstr st.g 3, prevInstr st.g 2, prevInstr st.g 1 with
    | some (.ins .dup), some (.ins (.pushLocalPtr off)), some (.ins (.swapAssign _ _)) =>
      ({ st with g := Peephole.remove (Peephole.remove (Peephole.remove st.g)), note := none }, off)
    | _, _, _ => (st, 0)
  else (st, 0)

/-- The identifier at an address; `none` if it was freed. -/
def findIdent (id : Nat) (blocks : List Block) : Option Ident :=
  blocks.findSome? fun b => b.idents.find? fun i => i.id == id

/-- `ident->isUsed = false` -/
def setUnused (id : Nat) (blocks : List Block) : List Block :=
  blocks.map fun b => { b with idents := b.idents.map fun i => if i.id == id then { i with used := false } else i }

/-- `doTryRemoveCopyResultToTempVar`, `umka_expr.c:48-65`. -/
def tryRemove (st : State) : Res (State × Bool) :=
  match st.last with
  | none => .ok (st, false)
  | some id =>
    let (st, off) := genTryRemove st
    if off = 0 then .ok (st, false)
    else
      match findIdent id st.blocks with
      | none => .ub
      | some i =>
        if off ≠ i.offset then .err .resultCopy
        else .ok ({ st with blocks := setUnused id st.blocks }, true)

/-- `doTryOptimizeIncRefCnt`, `umka_expr.c:68-76`. -/
def incRefCnt (e : Env ω) (st : State) (t : Ty) : Res State :=
  (tryRemove st).bind fun (st, removed) =>
    if removed then .ok st else emit e st (.op (.refCnt .inc t))

/-- `genRefCntAssign`, `umka_gen.c:707-716`, and `genLeftRefCntAssign`, `umka_gen.c:731-740`: `op` is the number of the
instruction for types with references. -/
def genCountedAssign (e : Env ω) (st : State) (t : RType) (op : Nat) : Res State :=
  emit e st (.op (if t.ty.collected then .other op else .assign t.kind t.size))

/-- `doTryOptimizeRefCntAssign`, `umka_expr.c:79-90`. -/
def refCntAssign (e : Env ω) (ops : Ops) (st : State) (t : RType) (isOldLhsValid : Bool) : Res State :=
  (tryRemove st).bind fun (st, removed) =>
    if removed then
      if isOldLhsValid then genCountedAssign e st t (ops.leftRefCntAssign t.ty)
      else emit e st (.op (.assign t.kind t.size))
    else genCountedAssign e st t (ops.refCntAssign t.ty)

/-- A list of calls of generator functions. -/
def emitAll (e : Env ω) : List Item → State → Res State
  | [], st => .ok st
  | it :: its, st => (emit e st it).bind (emitAll e its)

/-- `doGarbageCollectionAt`, `umka_stmt.c:15-34`: the references of the variables of a block are dropped. -/
def releases (ops : Ops) (b : Block) : List Item :=
  (b.idents.filter fun i => i.gc && (!i.temp || i.used)).map fun i => .op (.other (ops.refCntVar i))

/-- `doGarbageCollection`, `identFree` and `blocksLeave` at the end of a block (`umka_stmt.c:1266-1268`). -/
def leave (e : Env ω) (ops : Ops) (st : State) : Res State :=
  match st.blocks with
  | b :: b' :: bs => (emitAll e (releases ops b) st).bind fun st => .ok { st with blocks := b' :: bs }
  | _ => .err .noBlock

/-- What the parser asks for. -/
inductive Req
  /-- a call of a generator function -/
  | code (it : Item)
  /-- `genResetOptimizer`, `umka_gen.c:54-57` -/
  | reset
  /-- a variable is declared, or a temporary variable that is not for a result (`identAllocVar`, `identAllocTempVar`) -/
  | var (t : RType) (temp used : Bool)
  /-- a result on the stack is copied to a temporary variable (`doCopyResultToTempVar`) -/
  | result (t : RType)
  /-- a value is passed as a parameter, stored in a new variable or returned (`doTryOptimizeIncRefCnt`) -/
  | pass (t : Ty)
  /-- a value is assigned (`doTryOptimizeRefCntAssign`) -/
  | assign (t : RType) (isOldLhsValid : Bool)
  /-- `blocksEnterFn` or `blocksEnter`, `umka_common.c:528-545` -/
  | enter (fn : Bool)
  /-- the end of a block -/
  | leave
  /-- `break`, `continue`, `return`: `doGarbageCollectionDownToBlock`, `umka_stmt.c:44-49`, for the `n` innermost blocks -/
  | unwind (n : Nat)

/-- One request. -/
def step (e : Env ω) (ops : Ops) (st : State) : Req → Res State
  | .code it => emit e st it
  | .reset => .ok { st with note := none }
  | .var t temp used => (allocVar st t temp used).bind fun (st, _) => .ok st
  | .result t => copyResult e st t
  | .pass t => incRefCnt e st t
  | .assign t valid => refCntAssign e ops st t valid
  | .enter fn => .ok { st with blocks := ⟨if fn then some 0 else none, []⟩ :: st.blocks }
  | .leave => leave e ops st
  | .unwind n => emitAll e ((st.blocks.dropLast.take n).flatMap (releases ops)) st

/-- Many requests. -/
def run (e : Env ω) (ops : Ops) : List Req → State → Res State
  | [], st => .ok st
  | r :: rs, st => (step e ops st r).bind (run e ops rs)

/-- `genInit`, `identInit`, `blocksInit` (`umka_gen.c:38-51`, `umka_ident.c:20-28`, `umka_common.c:517-525`). -/
def init : State := ⟨Peephole.initGen, none, [⟨none, []⟩], none, 0⟩

end Umka.ResultCopy
