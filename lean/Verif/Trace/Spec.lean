import Verif.Trace.Model
import Verif.Frame.Spec

/-!
# Source locations and the call stack: specification
-/

namespace Umka.Trace

/-! ## Functions and their code -/

/-- The instruction is between the first and the last one of the function. -/
def Fn.has (e : Fn) (ip : Nat) : Bool := e.start ≤ ip && ip < e.stop

/-- The function an instruction belongs to.  Literals come before the function that contains them. -/
def owner (T : List Fn) (ip : Nat) : Option Fn := T.find? (·.has ip)

/-- A function in the source code: its file, its name, and the lines of its tokens. -/
structure Source where
  file : String
  name : String
  lines : List Nat
  deriving DecidableEq, Repr

/-- The literals in the body of a function, innermost first.  Literals have no name. -/
def Code.literals (file : String) : Code → List Source
  | .nil => []
  | .tok _ k | .op _ k | .dropEntry k | .dropCopy k | .call k | .label k | .goto k | .exit _ k => k.literals file
  | .block _ _ b k | .scope _ b k => b.literals file ++ k.literals file
  | .lit first _ b p k =>
    b.literals file ++ p.literals file ++ [⟨file, "<unknown>", fnLines first b p⟩] ++ k.literals file

/-- The functions of a module, and of the modules it imports. -/
def Decls.functions (file : String) : Decls → List Source
  | .nil => []
  | .tok _ k | .proto _ k => k.functions file
  | .fn _ shown first _ b p k =>
    b.literals file ++ p.literals file ++ [⟨file, shown, fnLines first b p⟩] ++ k.functions file
  | .import f ds k => ds.functions f ++ k.functions file

/-! ## What can fail, and where -/

/-- Kinds of instructions that can fail, as far as the optimizer keeps them apart. -/
inductive Mark
  | call
  | dynIndex | mapIndex | index
  | unary (op : Arith.UnOp) | binary (op : Arith.BinOp) | builtin (f : Peephole.BuiltinFn) | deref
  /-- type assertions, range checks, `CALL_EXTERN` and so on -/
  | other (n : Nat)

/-- These are never evaluated by the compiler. -/
def Mark.always : Mark → Bool
  | .call | .dynIndex | .mapIndex | .other _ | .builtin (.other _) => true
  | _ => false

/-- `other 0` and `other 1` are instructions of external functions, and before the call of `main`. -/
def markOf : Peephole.Instr → Option Mark
  | .getDynArrayPtr | .getDynArray _ => some .dynIndex
  | .getMapPtr _ | .getMap .. => some .mapIndex
  | .getArrayPtr .. | .getArray .. => some .index
  | .unary op _ => some (.unary op)
  | .binary op _ => some (.binary op)
  | .callBuiltin f _ => some (.builtin f)
  | .deref _ => some .deref
  | .other n => if n < 2 then none else some (.other n)
  | _ => none

def Op.mark : Op → Option Mark
  | .ins i => markOf i
  | .call => some .call
  | _ => none

/-- The instructions that can fail, with their locations. -/
def marks (code : List Cell) : List (Mark × Debug) := code.filterMap fun c => c.op.mark.map (·, c.debug)

/-- The line of the last token. -/
def Code.last (line : Nat) : Code → Nat
  | .nil => line
  | .tok l k => k.last l
  | .op _ k | .dropEntry k | .dropCopy k | .call k | .label k | .goto k | .exit _ k => k.last line
  | .block _ _ b k | .scope _ b k => k.last (b.last line)
  | .lit _ after _ _ k => k.last after

/-- The operations in the source code of a function that can fail: the location is that of the last token before. -/
def Code.marks (file : String) : (fn : String) → (line : Nat) → Code → List (Mark × Debug)
  | _, _, .nil => []
  | fn, _, .tok l k => k.marks file fn l
  | fn, line, .op i k => (markOf i).toList.map (·, ⟨file, fn, line⟩) ++ k.marks file fn line
  | fn, line, .call k => (.call, ⟨file, fn, line⟩) :: k.marks file fn line
  | fn, line, .dropEntry k | fn, line, .dropCopy k | fn, line, .label k | fn, line, .goto k | fn, line, .exit _ k => k.marks file fn line
  | fn, line, .block _ _ b k | fn, line, .scope _ b k => b.marks file fn line ++ k.marks file fn (b.last line)
  | fn, _, .lit first after b p k =>
    b.marks file "<unknown>" first ++ p.marks file "<unknown>" (b.last first) ++ k.marks file fn after

/-- Those of a module, and of the modules it imports. -/
def Decls.marks (file : String) : Decls → List (Mark × Debug)
  | .nil => []
  | .tok _ k | .proto _ k => k.marks file
  | .fn _ shown first _ b p k => b.marks file shown first ++ p.marks file shown (b.last first) ++ k.marks file
  | .import f ds k => ds.marks f ++ k.marks file

/-! ## Calls in progress -/

open Umka.Frame

/-- Where a call that has not returned was made: by an instruction, or by the host, by an external function, or as the
function of a fiber. -/
inductive Call
  | «from» (ip : Int)
  | outside
  deriving DecidableEq

def putCalls (h : Nat → List Call) (k : Nat) (l : List Call) : Nat → List Call := fun j => if j = k then l else h j

/-- The calls in progress of all fibers, after the next instruction. -/
def nextCalls (p : Program) (vm : VM) (h : Nat → List Call) : Nat → List Call :=
  let ip := (vm.fiber vm.loc).ip
  match p.code ip with
  | .call _ | .callIndirect _ => putCalls h vm.loc (.from ip :: h vm.loc)
  | .ext _ next => if (next vm).isSome then putCalls h vm.cur (.outside :: h vm.cur) else h
  | .ret _ => putCalls h vm.loc (h vm.loc).tail
  | .spawn .. => putCalls h vm.num [.outside]
  | _ => h

/-- Executions of programs that meet the conditions of `Frame`, with the calls in progress. -/
inductive History (p : Program) : VM → List Ptr → (Nat → List Call) → Prop
  | start {size : Nat} {entry : Int} {params : List Int} {vm : VM} :
      Frame.start size entry params = .ok vm → Entry p entry params.length → History p vm [] fun _ => [.outside]
  | step {vm vm' : VM} {P : List Ptr} {h : Nat → List Call} :
      History p vm P h → Valid p vm P → Frame.step p vm = .ok vm' →
      History p vm' (pointers p vm P) (nextCalls p vm h)

/-- The calls that lead from the outermost function to the running one, innermost first: up to the one that was made
from outside. -/
def callers : List Call → List Int
  | .from ip :: l => ip :: callers l
  | _ => []

end Umka.Trace
