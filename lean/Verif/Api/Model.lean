/-!
# Api: model

The life of an interpreter as the host sees it: `umkaInit`, `umkaCompile`, `umkaRun`, `umkaCall`, `umkaAlive`, `umkaGetError`
(`umka_api.c`, `umka_compiler.c`, `umka_vm.c`).

* What a called Umka function does is a script (`Act`).  Scripts are arbitrary, so all programs are covered; programs that do not end are
  not (the host never sees the end of such a call).
* A host function called by the program may call the API again (`Act.host`).
* `setjmp`/`longjmp`: every API call in progress is a frame with a number; `jumper` is the number of the frame that has called
  `setjmp(error.jumper)` last.  A jump to a frame that has returned is undefined behaviour.
* Two history variables, `faults` and `steps`, record what the property talks about: the run-time errors and exits that have happened, and
  the number of instructions executed.
-/

namespace Umka.Api

abbrev FiberId := Nat

/-- The main fiber. -/
def main : FiberId := 0

/-- What a call of an Umka function does. -/
inductive Act
  /-- The function returns to the host. -/
  | done
  /-- A run-time error with its code (`ERR_RUNTIME` is -1). -/
  | error (code : Int)
  /-- `exit(code)`. -/
  | exit (code : Int)
  /-- `make(fiber, ...)`: a new fiber. -/
  | spawn (f : Nat) (k : Act)
  /-- `resume(f)`. -/
  | resume (f : FiberId) (k : Act)
  /-- `resume()` in a fiber with parent `p`. -/
  | yield (p : FiberId) (k : Act)
  /-- The function of a fiber with parent `p` returns. -/
  | finish (p : FiberId) (k : Act)
  /-- An external function calls `umkaRun` (`isRun`) or `umkaCall` of a function (`defined`: it exists), which does `a`. -/
  | host (isRun defined : Bool) (a k : Act)

/-- The state of the interpreter. -/
structure St where
  /-- `Fiber.alive`. -/
  alive : FiberId → Bool
  /-- `VM.fiber`. -/
  cur : FiberId
  /-- `mainFn.entryOffset > 0`. -/
  hasMain : Bool
  /-- `Error.report.code`. -/
  code : Int
  /-- `Error.jumperNesting`. -/
  nesting : Nat
  /-- The frame that has set `Error.jumper`. -/
  jumper : Nat
  /-- The number of the next frame. -/
  next : Nat
  /-- History: codes of the errors and exits, first to last. -/
  faults : List Int
  /-- History: instructions executed. -/
  steps : Nat

inductive Out
  /-- Normal end, with the value returned. -/
  | ok (ret : Int) (s : St)
  /-- `longjmp` to a frame that is in progress. -/
  | jump (frame : Nat) (s : St)
  | ub

def tick (s : St) : St := { s with steps := s.steps + 1 }

def setAlive (alive : FiberId → Bool) (f : FiberId) (b : Bool) : FiberId → Bool := fun g => if g = f then b else alive g

/-- `runtimeError`, `umka_api.c:49-63`, and `vmKill`, `umka_vm.c:4216-4219`. -/
def fault (code : Int) (active : List Nat) (s : St) : Out :=
  let s := { s with code := code, alive := setAlive s.alive main false, faults := s.faults ++ [code] }
  if s.jumper ∈ active then .jump s.jumper s else .ub

/-- The checks of `vmCall`, `umka_vm.c:4154-4160`; `body` is the rest. -/
def vmCall (defined : Bool) (body : List Nat → St → Out) (active : List Nat) (s : St) : Out :=
  if !s.alive s.cur then fault (-1) active s
  else if !defined then fault (-1) active s
  else body active s

/-- `umkaRun`, `umka_api.c:102-113`, with `compilerRun`, `umka_compiler.c:277-281`; and `umkaCall`, `umka_api.c:116-132`. -/
def apiCall (isRun defined : Bool) (body : List Nat → St → Out) (active : List Nat) (s : St) : Out :=
  let frame := s.next
  let s := { s with
    next := s.next + 1
    jumper := if isRun || s.nesting == 0 then frame else s.jumper
    nesting := s.nesting + 1 }
  let r := if isRun then
      (if s.hasMain then vmCall true body (frame :: active) s else .ok 0 s)
    else vmCall defined body (frame :: active) s
  match r with
  | .ok _ s => .ok 0 { s with nesting := s.nesting - 1 }
  | .jump f s => if f = frame then .ok s.code s else .jump f s
  | .ub => .ub

/-- `vmLoop`, `umka_vm.c:4062-4151`; `fiber` is its local variable of this name.

* `exit`: `doBuiltinExit`, `umka_vm.c:3081-3087`;
* `resume`, `yield`: `doBuiltinResume`, `umka_vm.c:3054-3063`, and `umka_vm.c:4114-4126`;
* `finish`: `doReturn`, `umka_vm.c:3984-3999`, and `umka_vm.c:4127-4139`.  The function called by the host runs in the main fiber or
  returns from `vmLoop` like the main fiber's function;
* `spawn`: `doAllocFiber`, `umka_vm.c:1625-1656`; the number is never that of the main fiber. -/
def exec : Act → FiberId → List Nat → St → Out
  | .done, _, _, s => .ok 0 (tick s)
  | .error code, _, active, s => fault code active (tick s)
  | .exit code, fiber, active, s => fault code active { tick s with alive := setAlive s.alive fiber false }
  | .spawn f k, fiber, active, s => exec k fiber active { tick s with alive := setAlive s.alive (f + 1) true }
  | .resume f k, fiber, active, s =>
    let f' := if s.alive f then f else fiber
    exec k f' active { tick s with cur := f' }
  | .yield p k, _, active, s => exec k p active { tick s with cur := p }
  | .finish p k, fiber, active, s =>
    if fiber = main then .ok 0 (tick s)
    else
      let s := { tick s with alive := setAlive s.alive fiber false, cur := p }
      if s.alive p then exec k p active s else .ok 0 s
  | .host isRun defined a k, fiber, active, s =>
    match apiCall isRun defined (fun active s => exec a s.cur active s) active (tick s) with
    | .ok _ s => exec k fiber active s
    | .jump f s => .jump f s
    | .ub => .ub

/-- What the host does with an interpreter, outside of external functions. -/
inductive Op
  /-- `umkaCompile`: succeeds or not; the program has a function `main` or not. -/
  | compile (ok hasMain : Bool)
  | run (a : Act)
  | call (defined : Bool) (a : Act)

/-- `umkaInit`, `umka_api.c:72-88`: everything is zero but `alive` of the main fiber, `umka_vm.c:902`.  The frame 0 is that of `umkaInit`. -/
def init : St where
  alive := fun f => f == main
  cur := main
  hasMain := false
  code := 0
  nesting := 0
  jumper := 0
  next := 1
  faults := []
  steps := 0

/-- An API call by the host.  `umkaCompile`, `umka_api.c:91-99`: in case of an error `compileError`, `umka_api.c:35-46`, jumps back to it;
`mainFn` is set at the end (`umka_decl.c:933`), `vmReset`, `umka_vm.c:929-936`, selects the main fiber. -/
def step (s : St) : Op → Out
  | .compile true hasMain => .ok 1 { s with next := s.next + 1, jumper := s.next, hasMain := hasMain, cur := main }
  | .compile false _ =>
    .ok 0 { s with next := s.next + 1, jumper := s.next, code := 1, alive := setAlive s.alive main false, faults := s.faults ++ [1] }
  | .run a => apiCall true true (fun active s => exec a s.cur active s) [] s
  | .call defined a => apiCall false defined (fun active s => exec a s.cur active s) [] s

/-- `umkaAlive`, `umka_api.c:148-151`. -/
def umkaAlive (s : St) : Bool := s.alive main

/-- A history: the state and the values returned so far; `none` if something undefined has happened.  A jump out of the outermost call is
impossible, since there is no other frame. -/
def session : St → List Op → Option (List Int × St)
  | s, [] => some ([], s)
  | s, op :: ops =>
    match step s op with
    | .ok r s => (session s ops).map (fun x => (r :: x.1, x.2))
    | _ => none

end Umka.Api
