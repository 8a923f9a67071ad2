import Verif.Peephole.Model
import Verif.Frame.Model

/-!
# Source locations of instructions, and the call stack: model

The compiler stores a source location with every instruction (`genAddInstr`, `umka_gen.c:68-78`): the file, the
function and the line that `umka->debug` holds at that time.  The lexer sets the line when it reads a token
(`umka_lexer.c:882`), `parseFnBlock` sets the function (`umka_stmt.c:1280-1290`, `1373`), an import sets and restores
the file (`umka_decl.c:849-862`, `umka_lexer.c:160-163`).  A run-time error is reported at the location of
the instruction that failed (`umka_api.c:49-61`); `umkaGetCallStack` (`umka_api.c:178-202`) walks over the frames
(`stackUnwind`, `umka_vm.c:301-314`) and gives the locations of the return addresses.

Simplifications.  Source code is reduced to what the compiler does with the generator and the lexer: tokens that
are read, instructions that are requested (with all rules of the optimizer), stubs that are filled in later,
functions, prototypes and imports.  Instructions without rules that matter here are single operations: jumps,
stubs, calls of Umka functions, setting up and removing frames.  Names are strings without a limit.
-/

namespace Umka.Trace
open Umka.Peephole (Instr R Env Kind Reg Tok Ty BuiltinFn toInt32 isComparison numResKind numArg numRes lift
  constUnary constBinary)
open Umka.Arith (BinOp UnOp)

/-- `DebugInfo`, `umka_common.h:71-76`. -/
structure Debug where
  file : String
  fn : String
  line : Nat
  deriving DecidableEq, Repr

/-- Instructions: those that the optimizer knows (`OP_CALL_EXTERN` included, as `other`), and the others. -/
inductive Op
  | ins (i : Instr)
  /-- `OP_GOTO`, `OP_GOTO_IF`, `OP_GOTO_IF_NOT` -/
  | jump
  /-- `OP_NOP`, to be filled in -/
  | stub
  /-- `OP_CALL`, `OP_CALL_INDIRECT` -/
  | call
  | enter | leave | ret | halt

/-- `gen->code[ip]` and `gen->debugPerInstr[ip]`. -/
structure Cell where
  op : Op
  debug : Debug

/-- The part of `CodeGen` (`umka_gen.h:31-43`) that the optimizer uses, with `*gen->debug`. -/
structure Gen where
  code : List Cell
  lastJump : Nat
  debug : Debug

/-- `gen->ip` -/
def Gen.ip (g : Gen) : Nat := g.code.length

/-- `genAddInstr`, `umka_gen.c:68-78`. -/
def put (g : Gen) (o : Op) : Gen := { g with code := g.code ++ [⟨o, g.debug⟩] }

def add (g : Gen) (i : Instr) : Gen := put g (.ins i)

/-- `genRemoveInstr`, `umka_gen.c:81-85`. -/
def remove (g : Gen) : Gen := { g with code := g.code.dropLast }

/-- Changing the last instruction in place: its location stays. -/
def edit (g : Gen) (i : Instr) : Gen :=
  match g.code.getLast? with
  | some c => { g with code := g.code.dropLast ++ [⟨.ins i, c.debug⟩] }
  | none => g

/-- Changing the last instruction but one in place. -/
def edit2 (g : Gen) (i : Instr) : Gen :=
  match g.code.getLast? with
  | some c => { g with code := (edit (remove g) i).code ++ [c] }
  | none => g

def insOf : Option Cell → Option Instr
  | some ⟨.ins i, _⟩ => some i
  | _ => none

/-- `getPrevInstr(gen, 1)`, `umka_gen.c:90-97`. -/
def prev (g : Gen) : Option Instr := if g.ip < g.lastJump + 1 then none else insOf g.code.getLast?

/-- `getPrevInstr(gen, 2)`. -/
def prev2 (g : Gen) : Option Instr := if g.ip < g.lastJump + 2 then none else insOf g.code.dropLast.getLast?

/-- `getPrevInstr(gen, 3)`. -/
def prev3 (g : Gen) : Option Instr := if g.ip < g.lastJump + 3 then none else insOf g.code.dropLast.dropLast.getLast?

/-- `genPushLocalPtr`, `optimizePushLocalPtr`, `umka_gen.c:100-122`, `548-555`. -/
def genPushLocalPtr (g : Gen) (off : Int) : Gen :=
  match prev g, prev2 g with
  | some (.zero size), some (.pushLocalPtr off') =>
    if off = off' then add (remove (remove g)) (.pushLocalPtrZero off size)
    else add g (.pushLocalPtr off)
  | _, _ => add g (.pushLocalPtr off)

/-- `genPushReg`, `optimizePushReg`, `umka_gen.c:125-139`, `575-582`. -/
def genPushReg (g : Gen) (r : Reg) : Gen :=
  match prev g with
  | some (.popReg .self) => if r = .self then remove g else add g (.pushReg r)
  | _ => add g (.pushReg r)

/-- `genPushZero`, `optimizePushZero`, `umka_gen.c:142-155`, `592-599`. -/
def genPushZero (g : Gen) (n : Nat) : Gen :=
  match prev g with
  | some (.pushZero m) => edit g (.pushZero (m + n))
  | _ => add g (.pushZero n)

/-- `genPop`, `optimizePop`, `umka_gen.c:158-171`, `602-609`. -/
def genPop (g : Gen) : Gen :=
  match prev g with
  | some (.pop n) => edit g (.pop (n + 1))
  | _ => add g (.pop 1)

/-- `genPopReg`, `optimizePopReg`, `umka_gen.c:174-186`, `612-619`. -/
def genPopReg (g : Gen) (r : Reg) : Gen :=
  match prev g with
  | some (.pushReg r') => if r' = r then remove g else add g (.popReg r)
  | _ => add g (.popReg r)

/-- `genSwapAssign`, `optimizeSwapAssign`, `umka_gen.c:189-203`, `660-667`. -/
def genSwapAssign (g : Gen) (k : Kind) (size : Nat) : Gen :=
  match prev g with
  | some .swap => add (remove g) (.assign k size)
  | _ => add g (.swapAssign k size)

/-- `genRefCnt`, `optimizeRefCnt`, `umka_gen.c:206-226`, `677-684`. -/
def genRefCnt (g : Gen) (tok : Tok) (t : Ty) : Gen :=
  if t.collected then
    match prev g, t with
    | some (.push .ptr _), .ptr => g
    | some (.push .ptr _), .str => g
    | some (.pushLocalPtrZero _ _), t => if t.structured then g else add g (.refCnt tok t)
    | _, t => add g (.refCnt tok t)
  else g

/-- `genDeref`, `optimizeDeref`, `umka_gen.c:229-293`, `643-650`: variables are loaded by a new instruction, other
instructions are changed in place. -/
def genDeref (g : Gen) (k : Kind) : Nat → Gen
  | 0 => add g (.deref k)
  | n + 1 =>
    match prev g with
    | some (.push .ptr p) => add (remove g) (.pushGlobal k p)
    | some (.pushLocalPtr off) => add (remove g) (.pushLocal k off)
    | some (.getArrayPtr itemSize len) => edit g (.getArray itemSize len k)
    | some .getDynArrayPtr => edit g (.getDynArray k)
    | some (.getMapPtr t) => edit g (.getMap t k)
    | some (.getFieldPtr off) => if off = 0 then genDeref (remove g) k n else edit g (.getField off k)
    | _ => add g (.deref k)

/-- `genGetFieldPtr`, `optimizeGetFieldPtr`, `umka_gen.c:317-338`, `786-793`. -/
def genGetFieldPtr (g : Gen) (off : Int) : Gen :=
  match prev g with
  | some (.pushLocalPtr m) => edit g (.pushLocalPtr (m + off))
  | some (.getFieldPtr m) => edit g (.getFieldPtr (m + off))
  | _ => add g (.getFieldPtr off)

/-- `genGetArrayPtr`, `optimizeGetArrayPtr`, `umka_gen.c:296-314`, `762-769`. -/
def genGetArrayPtr (g : Gen) (itemSize : Nat) (len : Int) : R Gen :=
  match prev g with
  | some (.push (.ord .int) v) =>
    if 0 ≤ len then
      let index := toInt32 v
      if index < 0 ∨ index > len - 1 then .err .indexRange
      else if itemSize * index < 2 ^ 31 then .ok (genGetFieldPtr (remove g) (itemSize * index))
      else .ub
    else .ok (add g (.getArrayPtr itemSize len))
  | _ => .ok (add g (.getArrayPtr itemSize len))

/-- `genUnary`, `optimizeUnary`, `umka_gen.c:341-369`, `742-749`. -/
def genUnary (e : Env ω) (g : Gen) (op : UnOp) (k : Kind) : R Gen :=
  match prev g with
  | some (.push _ v) => (constUnary e op k v).bind fun v => .ok (edit g (.push k v))
  | _ => .ok (add g (.unary op k))

/-- `genBinary`, `optimizeBinary`, `umka_gen.c:372-418`, `752-759`: the left operand is changed in place. -/
def genBinary (e : Env ω) (g : Gen) (op : BinOp) (k : Kind) : R Gen :=
  match prev g, prev2 g with
  | some (.push _ r), some (.push _ l) =>
    if k.foldable then
      (constBinary e op k l r).bind fun v =>
        .ok (edit (remove g) (.push (if isComparison op then .ord .bool else k) v))
    else .ok (add g (.binary op k))
  | _, _ => .ok (add g (.binary op k))

/-- `genCallBuiltin`, `genCallTypedBuiltin`, `optimizeCallBuiltin`, `umka_gen.c:421-505`, `876-893`. -/
def genCallBuiltin (e : Env ω) (g : Gen) (f : BuiltinFn) (k : Kind) : R Gen :=
  match prev g with
  | some (.push k1 x) =>
    match f with
    | .num .atan2 =>
      match prev2 g with
      | some (.push k2 y) =>
        (lift (Arith.constCallBuiltin e.real .atan2 k2.arith (.r y) x)).bind fun v =>
          .ok (edit (remove g) (.push .real (numRes v)))
      | _ => .ok (add g (.callBuiltin f k))
    | .num f =>
      (lift (Arith.constCallBuiltin e.real f k1.arith (numArg f x) 0)).bind fun v =>
        .ok (edit g (.push (numResKind f) (numRes v)))
    | .makeRealLeft =>
      match prev2 g with
      | some (.push k2 y) =>
        (lift (Arith.constCallBuiltin e.real .makereal k2.arith (.i y) 0)).bind fun v =>
          .ok (edit2 g (.push .real (numRes v)))
      | _ => .ok (add g (.callBuiltin f k))
    | .other _ => .ok (add g (.callBuiltin f k))
  | _ => .ok (add g (.callBuiltin f k))

/-- One call of a generator function. -/
def gen (e : Env ω) (g : Gen) (i : Instr) : R Gen :=
  match i with
  | .pushLocalPtr off => .ok (genPushLocalPtr g off)
  | .pushReg r => .ok (genPushReg g r)
  | .pushZero n => .ok (genPushZero g n)
  | .pop n => if n = 1 then .ok (genPop g) else .ok (add g (.pop n))
  | .popReg r => .ok (genPopReg g r)
  | .swapAssign k size => .ok (genSwapAssign g k size)
  | .refCnt tok t => .ok (genRefCnt g tok t)
  | .deref k => .ok (genDeref g k g.ip)
  | .getFieldPtr off => .ok (genGetFieldPtr g off)
  | .getArrayPtr itemSize len => genGetArrayPtr g itemSize len
  | .unary op k => genUnary e g op k
  | .binary op k => genBinary e g op k
  | .callBuiltin f k => genCallBuiltin e g f k
  | i => .ok (add g i)

/-- `genTryRemoveImmediateEntryPoint`, `umka_gen.c:1134-1144`: a direct call does not push the entry point. -/
def dropEntry (g : Gen) : Gen :=
  match prev g with
  | some (.push _ _) => remove g
  | _ => g

/-- `genTryRemoveCopyResultToTempVar`, `umka_gen.c:1181-1202`.  Simplified: without the notification. -/
def dropCopy (g : Gen) : Gen :=
  match prev g, prev2 g, prev3 g with
  | some (.swapAssign _ _), some (.pushLocalPtr _), some .dup => remove (remove (remove g))
  | _, _, _ => g

/-- `genUpdateLastJump(gen, ip)`, `umka_gen.c:31-35`. -/
def jumpTo (g : Gen) (ip : Nat) : Gen := { g with lastJump := max g.lastJump ip }

/-- `genSavePos`, `umka_gen.c:926-930`. -/
def savePos (g : Gen) : Gen := jumpTo g g.ip

/-- Writing an instruction at an earlier position, with the location of now: `gen->ip = start` and `genAddInstr`. -/
def patch (g : Gen) (start : Nat) (o : Op) : Gen := { g with code := g.code.set start ⟨o, g.debug⟩ }

/-- `genGoFromTo` and the like, `umka_gen.c:939-963`. -/
def goFromTo (g : Gen) (start dest : Nat) : Gen := patch (jumpTo (jumpTo g start) dest) start .jump

/-- `genGotosEpilog`, `umka_gen.c:1164-1168`. -/
def gotosEpilog (g : Gen) : List Nat → Gen
  | [] => g
  | q :: qs => gotosEpilog (goFromTo g q g.ip) qs

/-! ## Source code -/

/-- `break`, `continue`, `return` -/
inductive Exit
  | brk | cont | ret
  deriving DecidableEq

/-- What the compiler does for the body of a function, in this order. -/
inductive Code
  | nil
  /-- `lexNext`: the next token is on this line -/
  | tok (line : Nat) (rest : Code)
  | op (i : Instr) (rest : Code)
  | dropEntry (rest : Code)
  | dropCopy (rest : Code)
  /-- `genCall`, `genCallIndirect` -/
  | call (rest : Code)
  /-- `genSavePos` at the start of a loop -/
  | label (rest : Code)
  /-- `genGoto` back -/
  | goto (rest : Code)
  /-- a stub, code, and the jump that fills in the stub: `genIfCondEpilog` and so on, `umka_gen.c:966-1109`; `extra`:
  the destination is the current position or the next one -/
  | block (save : Bool) (extra : Nat) (body rest : Code)
  /-- `genGotosProlog`, code, `genGotosEpilog` -/
  | scope (x : Exit) (body rest : Code)
  /-- `genGotosAddStub` -/
  | exit (x : Exit) (rest : Code)
  /-- a function literal: `parseClosureLiteral`, `umka_expr.c:2356-2367`.  `first`: the line of the first token after the
  opening brace; `after`: of the first token after the closing brace; `post`: the code after the destination of
  `return`. -/
  | lit (first after : Nat) (body post rest : Code)

/-- A function that has been compiled: its instructions are `start ≤ ip < stop`.  This record does not exist in the
compiler; `start` is `ident->offset`. -/
structure Fn where
  start : Nat
  stop : Nat
  file : String
  name : String
  /-- the lines of its tokens: without those of function literals -/
  lines : List Nat
  /-- a prototype of an external function -/
  ext : Bool
  deriving DecidableEq, Repr

/-- The lines of the tokens read by code, without the tokens of function literals. -/
def Code.lines : Code → List Nat
  | .nil => []
  | .tok l k => l :: k.lines
  | .op _ k | .dropEntry k | .dropCopy k | .call k | .label k | .goto k | .exit _ k => k.lines
  | .block _ _ b k | .scope _ b k => b.lines ++ k.lines
  | .lit _ after _ _ k => after :: k.lines

/-- The compiler. -/
structure St where
  gen : Gen
  /-- `gen->breaks`, `gen->continues`, `gen->returns` -/
  gotos : Exit → Option (List Nat)
  /-- prototypes of this module without a body so far: `ident->prototypeOffset` -/
  protos : List (String × Nat)
  /-- the functions compiled so far -/
  table : List Fn

/-- `umka_lexer.c:882`. -/
def St.tok (s : St) (line : Nat) : St := { s with gen := { s.gen with debug := { s.gen.debug with line := line } } }

def St.setFn (s : St) (name : String) : St := { s with gen := { s.gen with debug := { s.gen.debug with fn := name } } }

def setGotos (g : Exit → Option (List Nat)) (x : Exit) (v : Option (List Nat)) : Exit → Option (List Nat) :=
  fun y => if y = x then v else g y

/-- The end of `parseFnBlock`, `umka_stmt.c:1362-1376`, `genLeaveFrameFixup`, `umka_gen.c:1115-1125`. -/
def finish (s : St) (start : Nat) (prevFn : String) (fn : Nat → Fn) : St :=
  let g := put (put (patch s.gen start .enter) .leave) .ret
  { s with gen := { g with debug := { g.debug with fn := prevFn } }, table := s.table ++ [fn g.ip] }

/-- The prolog of `parseFnBlock`, `umka_stmt.c:1280-1340`: `genEnterFrameStub`, `umka_gen.c:1108-1112`, and fresh lists
for `break`, `continue` and `return`. -/
def begin (s : St) : St :=
  { s with gen := put (savePos s.gen) .stub, gotos := fun x => if x = .ret then some [] else none }

/-- The lines of the tokens of a function. -/
def fnLines (first : Nat) (body post : Code) : List Nat := first :: (body.lines ++ post.lines)

/-- The compiler on the body of a function.  `.err`: a compile-time error.  Simplified: the lists of the outer function are
restored after the code for the end of the function (`doGarbageCollection`, no statements) and not before it. -/
def compile (e : Env ω) : Code → St → R St
  | .nil, s => .ok s
  | .tok l k, s => compile e k (s.tok l)
  | .op i k, s => (gen e s.gen i).bind fun g => compile e k { s with gen := g }
  | .dropEntry k, s => compile e k { s with gen := dropEntry s.gen }
  | .dropCopy k, s => compile e k { s with gen := dropCopy s.gen }
  | .call k, s => compile e k { s with gen := put s.gen .call }
  | .label k, s => compile e k { s with gen := savePos s.gen }
  | .goto k, s => compile e k { s with gen := put (jumpTo s.gen s.gen.ip) .jump }
  | .block save extra body k, s =>
    let q := s.gen.ip
    (compile e body { s with gen := put (if save then savePos s.gen else s.gen) .stub }).bind fun s =>
      compile e k { s with gen := goFromTo s.gen q (s.gen.ip + extra) }
  | .scope x body k, s =>
    let outer := s.gotos x
    (compile e body { s with gotos := setGotos s.gotos x (some []) }).bind fun s =>
      compile e k { s with gen := gotosEpilog s.gen ((s.gotos x).getD []), gotos := setGotos s.gotos x outer }
  | .exit x k, s =>
    match s.gotos x with
    | none => .err (.other 0)                                   -- "No loop to break" and so on
    | some l => compile e k { s with gen := put s.gen .stub, gotos := setGotos s.gotos x (some (l ++ [s.gen.ip])) }
  | .lit first after body post k, s =>
    let q := s.gen.ip
    let s0 := { s with gen := put s.gen .stub }
    let prevFn := s0.gen.debug.fn
    let s1 := begin ((s0.tok first).setFn "<unknown>")
    (compile e body s1).bind fun s2 =>
      (compile e post { s2 with gen := gotosEpilog s2.gen ((s2.gotos .ret).getD []), gotos := fun _ => none }).bind fun s3 =>
        let s4 := finish { s3 with gotos := s0.gotos } s0.gen.ip prevFn fun stop =>
          { start := s0.gen.ip, stop, file := s.gen.debug.file, name := "<unknown>", lines := fnLines first body post, ext := false }
        let s5 := s4.tok after
        compile e k { s5 with gen := goFromTo s5.gen q s5.gen.ip }

/-- What the compiler does for a module. -/
inductive Decls
  | nil
  | tok (line : Nat) (rest : Decls)
  /-- `parseFnPrototype` -/
  | proto (name : String) (rest : Decls)
  /-- `parseFnDecl` with a body (`umka_decl.c:728-764`), or a function literal outside functions.  `shown`: the
  name with the receiver (`identMethodNameWithRcv`), for methods. -/
  | fn (name shown : String) (first after : Nat) (body post : Code) (rest : Decls)
  /-- a module that is imported for the first time, `umka_decl.c:846-863` -/
  | «import» (file : String) (decls rest : Decls)

def resolveFn (s : St) (name : String) (q : Nat) : St :=
  let s0 := { s with gen := goFromTo s.gen q s.gen.ip }
  let s1 := { s0 with gen := add (put (savePos s0.gen) .stub) (.other 0) }
  finish s1 s0.gen.ip s.gen.debug.fn fun stop =>
    { start := s0.gen.ip, stop, file := s.gen.debug.file, name, lines := [s.gen.debug.line], ext := true }

/-- `doResolveExtern`, `umka_stmt.c:73-137`: code for the prototypes that have no body.  Simplified: the code between
the frame instructions is the call of the external function. -/
def resolveAll (s : St) : List (String × Nat) → St
  | [] => s
  | (name, q) :: ps => resolveAll (resolveFn s name q) ps

/-- The end of `parseModule`, `umka_decl.c:902-917`. -/
def endModule (s : St) : St := { resolveAll s s.protos with protos := [] }

/-- The jump from a prototype to the function: `umka_stmt.c:1292-1296`, `genEntryPoint`. -/
def entryPoint (s : St) (name : String) : St :=
  match s.protos.lookup name with
  | some q => { s with gen := goFromTo s.gen q s.gen.ip, protos := s.protos.filter (·.1 ≠ name) }
  | none => s

/-- The compiler on a module. -/
def compileDecls (e : Env ω) : Decls → St → R St
  | .nil, s => .ok s
  | .tok l k, s => compileDecls e k (s.tok l)
  | .proto name k, s =>
    compileDecls e k { s with gen := put s.gen .stub, protos := s.protos ++ [(name, s.gen.ip)] }
  | .fn name shown first after body post k, s =>
    let prevFn := s.gen.debug.fn
    let s0 := (s.tok first).setFn shown
    let s0 := entryPoint s0 name
    (compile e body (begin s0)).bind fun s2 =>
      (compile e post { s2 with gen := gotosEpilog s2.gen ((s2.gotos .ret).getD []), gotos := fun _ => none }).bind fun s3 =>
        let s4 := finish { s3 with gotos := s0.gotos } s0.gen.ip prevFn fun stop =>
          { start := s0.gen.ip, stop, file := s.gen.debug.file, name := shown, lines := fnLines first body post, ext := false }
        compileDecls e k (s4.tok after)
  | .import file ds k, s =>
    (compileDecls e ds { s with gen := { s.gen with debug := ⟨file, "<unknown>", 1⟩ }, protos := [] }).bind fun s' =>
      let s' := endModule s'
      compileDecls e k { s' with gen := { s'.gen with debug := s.gen.debug }, protos := s.protos }

/-- `parseProgram`, `umka_decl.c:920-943`, after `genInit` and `lexInit`. -/
def compileProgram (e : Env ω) (file : String) (ds : Decls) : R St :=
  let s : St := ⟨put ⟨[], 0, ⟨file, "<unknown>", 1⟩⟩ .stub, fun _ => none, [], []⟩
  (compileDecls e ds s).bind fun s =>
    let s := endModule s
    let g := put (add (goFromTo s.gen 0 s.gen.ip) (.other 1)) .halt
    .ok { s with gen := g }

/-- The report of a run-time error: `runtimeError`, `umka_api.c:49-61`. -/
def errorAt (code : List Cell) (ip : Nat) : Option Debug := code[ip]?.map (·.debug)

/-! ## The call stack -/

/-- `stackUnwind`, `umka_vm.c:301-314`: the base of the caller and the return address. -/
def unwind (f : Frame.Fiber) (b : Int) : Option (Int × Int) :=
  if b = f.size - 1 then none
  else if f.stack (b + 1) = Frame.retFiber ∨ f.stack (b + 1) = Frame.retVM then none
  else some (f.stack b, f.stack (b + 1))

/-- The loop of `umkaGetCallStack`, `umka_api.c:180-185`. -/
def callStackFrom (f : Frame.Fiber) : Nat → Int × Int → Option Int
  | 0, (_, ip) => some ip
  | d + 1, (b, _) =>
    match unwind f b with
    | none => none
    | some x => callStackFrom f d x

/-- `umkaGetCallStack`: the position in the code. -/
def callStack (vm : Frame.VM) (depth : Nat) : Option Int :=
  let f := vm.fiber vm.cur
  callStackFrom f depth (f.base, f.ip)

/-- `umkaGetCallStack`: the location. -/
def callStackDebug (code : List Cell) (vm : Frame.VM) (depth : Nat) : Option Debug :=
  (callStack vm depth).bind fun ip => if ip < 0 then none else errorAt code ip.toNat

end Umka.Trace
