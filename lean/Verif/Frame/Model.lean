/-!
# Stack frames and fibers: model

The main loop of the virtual machine (`vmLoop`, `umka_vm.c:4062-4151`) with the instructions that handle calls,
stack frames and fibers: `doCall`, `doCallIndirect`, `doReturn`, `doEnterFrame`, `doLeaveFrame`,
`doBuiltinResume`, `doAllocFiber`, calls of the machine from external functions (`vmCall`, `4154-4196`), the
checks for stack overflow, and the check for escaping pointers to local variables.

Simplifications.  All instructions that only compute (arithmetic, assignment, allocation, most built-in
functions) are one instruction `data`, whose effect is an arbitrary function of the state: it removes slots from
the stack, pushes slots, and stores to variables.  A stack is a map from indices to slots, index 0 is
`fiber->stack`; a slot is an integer; a saved base pointer is an index.  Pointers to the stack are pairs of a
fiber and an index.  Fibers are not deallocated.  Hooks are left out.
-/

namespace Umka.Frame

/-- `StackFrameLayout`, `umka_common.h:172-222`: slots of the parameters and of the local variables. -/
structure Layout where
  params : Nat
  locals : Nat

/-- `Fiber`, `umka_vm.h:179-192`. -/
structure Fiber where
  size : Int
  stack : Int → Int
  top : Int
  base : Int
  ip : Int
  alive : Bool
  parent : Option Nat

/-- The machine.  `cur` is `vm->fiber` (and `pages->fiber`); `loc` is the variable `fiber` of the innermost
`vmLoop` on the C stack; `loops` are the enclosing loops, each waiting in a call of an external function or of
`sort`: its variable `fiber`, the instruction, and the slots reserved meanwhile. -/
structure VM where
  fiber : Nat → Fiber
  num : Nat
  cur : Nat
  loc : Nat
  loops : List (Nat × Int × Nat)

/-- A pointer to a stack. -/
abbrev Ptr := Nat × Int

inductive Instr
  /-- removes `pop` slots, pushes slots, and stores to variables -/
  | data (pop : Nat) (push : VM → List Int) (writes : VM → List (Ptr × Int))
  /-- `OP_PUSH_ZERO`, `OP_ASSIGN_PARAM`: removes `pop` slots and pushes a block of any size -/
  | block (pop : Nat) (vals : VM → List Int)
  /-- `OP_GOTO`, `OP_GOTO_IF`, `OP_GOTO_IF_NOT` -/
  | jump (target : VM → Int)
  | call (entry : Int)
  | callIndirect (params : Nat)
  | enter (layout : Int)
  | leave
  | ret (params : Nat)
  /-- counts a pointer: `OP_REF_CNT` and all other instructions that end in `chunkRefCnt`; `none`: a pointer to
  the heap or to a global variable -/
  | ref (ptr : VM → Option Ptr) (delta : Int)
  /-- `make(fiber, f)`, with the entry point and the captured variables of `f` -/
  | spawn (pop : Nat) (entry : VM → Int) (upvalue : VM → Int × Int)
  /-- `resume(f)`, `resume()` -/
  | resume (who : VM → Option Nat)
  /-- a call of an external function, or of `sort`: at any time, the next call back into the machine, with its
  entry point and parameters, or the end.  `temp`: slots reserved meanwhile. -/
  | ext (temp : Nat) (next : VM → Option (Int × List Int))
  | halt

structure Program where
  code : Int → Instr
  layout : Int → Layout

inductive Err
  /-- "Stack overflow" -/
  | overflow
  /-- "Pointer to a local variable escapes from the function" -/
  | escapes
  /-- "Illegal stack pointer" -/
  | illegalStack
  /-- "Called function is not defined" -/
  | undefinedFn
  /-- "Cannot run a dead fiber" -/
  | deadFiber
  /-- a slot outside the stack is written: undefined behaviour -/
  | fault
  /-- the model ran out of fuel in a loop over frames or fibers -/
  | fuel
  deriving DecidableEq, Repr

/-- One iteration: the next state, an error, or the end of the outermost loop. -/
inductive Res
  | ok (vm : VM)
  | done (vm : VM)
  | err (e : Err)

/-- `MEM_MIN_FREE_STACK`, `umka_vm.h:24`. -/
def minFree : Int := 1024

/-- `RETURN_FROM_VM`, `RETURN_FROM_FIBER`, `umka_vm.h:40-41`. -/
def retVM : Int := -2
def retFiber : Int := -1

def setSlot (s : Int → Int) (i v : Int) : Int → Int := fun j => if j = i then v else s j

def VM.set (vm : VM) (k : Nat) (f : Fiber) : VM :=
  { vm with fiber := fun j => if j = k then f else vm.fiber j }

/-- `(--fiber->top)->intVal = v`. -/
def push (f : Fiber) (v : Int) : Except Err Fiber :=
  if f.top ≤ 0 then .error .fault else .ok { f with top := f.top - 1, stack := setSlot f.stack (f.top - 1) v }

def pushAll (f : Fiber) : List Int → Except Err Fiber
  | [] => .ok f
  | v :: vs => do pushAll (← push f v) vs

/-- Stores to variables, through pointers. -/
def writeAll (vm : VM) : List (Ptr × Int) → Except Err VM
  | [] => .ok vm
  | ((k, i), v) :: ws =>
    let f := vm.fiber k
    if i < 0 ∨ f.size ≤ i then .error .fault
    else writeAll (vm.set k { f with stack := setSlot f.stack i v }) ws

def zeroSlots (s : Int → Int) (lo hi : Int) : Int → Int := fun j => if lo ≤ j ∧ j < hi then 0 else s j

/-- `doEnterFrame`, `umka_vm.c:4004-4033`. -/
def enterFrame (p : Program) (f : Fiber) (l : Int) : Except Err Fiber := do
  let locals : Int := (p.layout l).locals
  if f.top - locals < minFree then throw .overflow
  let f ← push f f.base
  let f := { f with base := f.top }
  let f ← push f 0
  let f ← push f l
  let f := { f with top := f.top - locals, stack := zeroSlots f.stack (f.top - locals) f.top }
  if f.top < 0 then throw .fault
  return { f with ip := f.ip + 1 }

/-- `doLeaveFrame`, `umka_vm.c:4036-4052`. -/
def leaveFrame (f : Fiber) : Except Err Fiber :=
  if f.stack (f.base - 1) ≠ 0 then .error .escapes
  else .ok { f with top := f.base + 1, base := f.stack f.base, ip := f.ip + 1 }

/-- `stackUnwind`, `umka_vm.c:301-314`. -/
def unwind (f : Fiber) (b : Int) : Option Int :=
  if b = f.size - 1 then none
  else if f.stack (b + 1) = retFiber ∨ f.stack (b + 1) = retVM then none
  else some (f.stack b)

/-- The loop of `stackUpdateFrameRefCnt`, `umka_vm.c:327-333`: the base of the frame that contains slot `i`. -/
def findFrame (p : Program) (f : Fiber) (i : Int) : Nat → Int → Except Err Int
  | 0, _ => .error .fuel
  | n + 1, b =>
    if i ≥ b + 2 + (p.layout (f.stack (b - 2))).params then
      match unwind f b with
      | none => .error .illegalStack
      | some b => findFrame p f i n b
    else .ok b

/-- `stackUpdateFrameRefCnt`, `umka_vm.c:317-337`. -/
def frameRefCnt (p : Program) (f : Fiber) (i delta : Int) : Except Err Fiber :=
  if f.top ≤ i ∧ i < f.size then
    if f.base = f.size - 1 then .ok f
    else do
      let b ← findFrame p f i (f.size - f.base).toNat f.base
      return { f with stack := setSlot f.stack (b - 1) (f.stack (b - 1) + delta) }
  else .ok f

/-- The loop over a fiber and its ancestors, `umka_vm.c:764-766`. -/
def refCnt (p : Program) (ptr : Ptr) (delta : Int) : Nat → VM → Nat → Except Err VM
  | 0, _, _ => .error .fuel
  | n + 1, vm, k => do
    let vm ← if ptr.1 = k then (frameRefCnt p (vm.fiber k) ptr.2 delta).map (vm.set k) else .ok vm
    match (vm.fiber k).parent with
    | none => return vm
    | some j => refCnt p ptr delta n vm j

/-- `doAllocFiber`, `umka_vm.c:1625-1656`; the parent is `f`, with index `k`. -/
def newFiber (f : Fiber) (k : Nat) (entry : Int) (up : Int × Int) : Except Err Fiber := do
  if entry ≤ 0 then throw .undefinedFn
  let child := { f with stack := fun _ => 0, top := f.size - 1, base := f.size - 1, parent := some k }
  let child ← pushAll child [up.2, up.1, retFiber]
  return { child with ip := entry }

/-- The end of a `vmLoop`: the C function that called it goes on, and so does the instruction that called that
function (`umka_vm.c:3867-3868`, `2751-2753`). -/
def exitLoop (vm : VM) : Res :=
  match vm.loops with
  | [] => .done vm
  | (k, ip, temp) :: rest =>
    let f := vm.fiber k
    .ok { vm.set k { f with ip := ip, top := f.top + temp } with loc := k, loops := rest }

def Res.of : Except Err VM → Res
  | .ok vm => .ok vm
  | .error e => .err e

/-- Replaces the running fiber. -/
def with1 (vm : VM) (r : Except Err Fiber) : Res := Res.of (r.map (vm.set vm.loc))

/-- `fiber = vm->fiber = vm->pages.fiber = newFiber`. -/
def VM.switch (vm : VM) (k : Nat) : VM := { vm with cur := k, loc := k }

/-- One iteration of `vmLoop`, `umka_vm.c:4062-4151`. -/
def step (p : Program) (vm : VM) : Res :=
  let f := vm.fiber vm.loc
  if f.top < minFree then .err .overflow                                     -- 4071
  else
    match p.code f.ip with
    | .data pop vals writes => Res.of do
      let f ← pushAll { f with top := f.top + pop, ip := f.ip + 1 } (vals vm)
      writeAll (vm.set vm.loc f) (writes vm)
    | .block pop vals =>                                                     -- 3105-3116, 3226-3243
      if f.top + pop - (vals vm).length < minFree then .err .overflow
      else with1 vm (pushAll { f with top := f.top + pop, ip := f.ip + 1 } (vals vm))
    | .jump target => with1 vm (.ok { f with ip := target vm })              -- 3809-3831
    | .call entry => with1 vm do                                             -- 3833-3841
      let f ← push f (f.ip + 1)
      return { f with ip := entry }
    | .callIndirect params => with1 vm do                                    -- 3844-3856
      let entry := f.stack (f.top + params)
      if entry = 0 then throw .undefinedFn
      let f ← push f (f.ip + 1)
      return { f with ip := entry }
    | .enter l => with1 vm (enterFrame p f l)
    | .leave => with1 vm (leaveFrame f)
    | .ret params =>                                                         -- 3984-4002, 4130-4143
      if f.stack f.top = retFiber then
        let vm := vm.set vm.loc { f with top := f.top + 1, alive := false }
        match f.parent with
        | none => exitLoop vm
        | some j =>
          let vm := vm.switch j
          if (vm.fiber j).alive = false ∨ (vm.fiber j).ip = retVM then exitLoop vm else .ok vm
      else
        let f := { f with top := f.top + 1 + params, ip := f.stack f.top }
        let vm := vm.set vm.loc f
        if f.alive = false ∨ f.ip = retVM then exitLoop vm else .ok vm
    | .ref ptr delta =>
      let vm' := vm.set vm.loc { f with ip := f.ip + 1 }
      match ptr vm with
      | none => .ok vm'
      | some q => Res.of (refCnt p q delta vm.num vm' vm.cur)
    | .spawn pop entry up => Res.of do                                       -- 2236-2242
      let child ← newFiber f vm.loc (entry vm) (up vm)
      let f ← push { f with top := f.top + pop, ip := f.ip + 1 } vm.num
      let vm' := vm.set vm.loc f
      return { vm'.set vm.num child with num := vm.num + 1 }
    | .resume who =>                                                         -- 3054-3064, 4117-4129
      let vm' := vm.set vm.loc { f with top := f.top + 1, ip := f.ip + 1 }
      let next :=
        match who vm with
        | some k => if (vm.fiber k).alive then k else vm.loc
        | none => match f.parent with | some j => j | none => vm.loc
      if f.alive = false then exitLoop vm' else .ok (vm'.switch next)
    | .ext temp next =>                                                      -- 3859-3870, 2761-2785, 4154-4196
      if f.top - temp < 0 then .err .fault
      else
      match next vm with
      | none => with1 vm (.ok { f with ip := f.ip + 1 })
      | some (entry, params) =>
        let g := vm.fiber vm.cur
        if g.alive = false then .err .deadFiber
        else if entry ≤ 0 then .err .undefinedFn
        else Res.of do
          let g' ← pushAll { g with top := g.top - temp } (params ++ [retVM])
          let vm' := vm.set vm.cur { g' with ip := entry }
          return { vm' with loc := vm.cur, loops := (vm.loc, f.ip, temp) :: vm.loops }
    | .halt => exitLoop (vm.set vm.cur { vm.fiber vm.cur with alive := false })   -- 4055-4059

/-- `vmReset` (`umka_vm.c:929-936`), then `vmCall` of a function from the host program. -/
def start (size : Nat) (entry : Int) (params : List Int) : Except Err VM := do
  let f : Fiber := ⟨size, fun _ => 0, size - 1, size - 1, 0, true, none⟩
  if entry ≤ 0 then throw .undefinedFn
  let f ← pushAll f (params ++ [retVM])
  return ⟨fun _ => { f with ip := entry }, 1, 0, 0, []⟩

end Umka.Frame
