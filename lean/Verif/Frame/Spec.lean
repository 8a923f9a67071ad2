import Verif.Frame.Model

/-!
# Stack frames and fibers: specification

The shape of compiled code, and the executions that are considered.
-/

namespace Umka.Frame

/-! ## Compiled code -/

/-- The entry point of a function with `n` parameter slots: its frame is set up first (`umka_stmt.c:1296`), possibly
after a jump from the place of a prototype (`umka_stmt.c:1290-1294`). -/
inductive Entry (p : Program) : Int → Nat → Prop
  | enter {e l : Int} : p.code e = .enter l → Entry p e (p.layout l).params
  | proto {e e' : Int} {t : VM → Int} {n : Nat} : p.code e = .jump t → (∀ vm, t vm = e') → Entry p e' n → Entry p e n

/-- Code of functions (`parseFnBlock`, `umka_stmt.c:1275-1372`): after the frame is set up, control stays in the body
of the function, until the frame is removed and the function returns.  `body ip n`: the instruction belongs to
the body of a function with `n` parameter slots. -/
structure Compiled (p : Program) where
  body : Int → Nat → Prop
  enter : ∀ {ip l}, p.code ip = .enter l → body (ip + 1) (p.layout l).params
  nonneg : ∀ {ip n}, body ip n → 0 ≤ ip
  next : ∀ {ip n}, body ip n →
    match p.code ip with
    | .data .. | .block .. | .callIndirect _ | .ref .. | .spawn .. | .resume _ | .ext .. => body (ip + 1) n
    | .jump t => ∀ vm, body (t vm) n
    | .call e => (∃ m, Entry p e m) ∧ body (ip + 1) n
    | .leave => p.code (ip + 1) = .ret n
    | .enter _ | .ret _ | .halt => False

/-! ## Executions -/

/-- The bases of the frames of a fiber. -/
inductive Active (f : Fiber) : Int → Prop
  | cur : f.base ≠ f.size - 1 → Active f f.base
  | up {b : Int} : Active f b → f.stack b ≠ f.size - 1 → Active f (f.stack b)

/-- Slot `i` holds a local variable or a parameter of the frame with base `b`. -/
def InFrame (p : Program) (f : Fiber) (b i : Int) : Prop :=
  let l := p.layout (f.stack (b - 2))
  b - 2 - l.locals ≤ i ∧ i < b - 2 ∨ b + 2 ≤ i ∧ i < b + 2 + l.params

/-- A pointer to a variable of a function that has not returned. -/
def IsVar (p : Program) (vm : VM) (q : Ptr) : Prop :=
  q.1 < vm.num ∧ (vm.fiber q.1).alive = true ∧ ∃ b, Active (vm.fiber q.1) b ∧ InFrame p (vm.fiber q.1) b q.2

/-- The lowest slot of the variables of the running function. -/
def low (p : Program) (f : Fiber) : Int := f.base - 2 - (p.layout (f.stack (f.base - 2))).locals

/-- Ancestors of a fiber, itself included. -/
inductive Ancestor (vm : VM) : Nat → Nat → Prop
  | refl {k : Nat} : Ancestor vm k k
  | parent {k j i : Nat} : (vm.fiber k).parent = some j → Ancestor vm j i → Ancestor vm k i

/-- What is assumed of an instruction, in the state in which it is executed.  `P` are the counted pointers to
stacks that exist.  Instructions remove only what the function pushed, stores and new pointers refer to variables of
functions that have not returned, functions are called with the parameters they expect, and a pointer that is
released exists. -/
def Sound (p : Program) (vm : VM) (P : List Ptr) : Prop :=
  let f := vm.fiber vm.loc
  match p.code f.ip with
  | .data pop vals writes =>
    f.top + pop ≤ low p f ∧ (vals vm).length ≤ pop + 1 ∧ ∀ w ∈ writes vm, IsVar p vm w.1
  | .block pop _ => f.top + pop ≤ low p f
  | .call e => ∀ n, Entry p e n → f.top + n ≤ low p f
  | .callIndirect n => f.top + n < low p f ∧ (f.stack (f.top + n) = 0 ∨ Entry p (f.stack (f.top + n)) n)
  | .ref ptr delta => ∀ q, ptr vm = some q → delta = 1 ∧ IsVar p vm q ∨ delta = -1 ∧ q ∈ P
  | .spawn pop entry _ => f.top + pop ≤ low p f ∧ Entry p (entry vm) 2
  | .resume who => f.top + 1 ≤ low p f ∧ ∀ k, who vm = some k → k < vm.num
  | .ext _ next => ∀ e ps, next vm = some (e, ps) → Entry p e ps.length
  | .jump _ | .enter _ | .leave | .ret _ | .halt => True

/-- Conditions that exclude real programs (`C35_suspended_violated`, `C36_orphan_violated`, `C36_nested_violated`):
pointers are counted by the fiber that they refer to or by its descendants, and fibers are switched outside
callbacks only, never to a dead parent. -/
def Tame (p : Program) (vm : VM) : Prop :=
  let f := vm.fiber vm.loc
  match p.code f.ip with
  | .ref ptr _ => ∀ q, ptr vm = some q → Ancestor vm vm.cur q.1
  | .resume who => vm.loops = [] ∧ (who vm = none → ∀ j, f.parent = some j → (vm.fiber j).alive = true)
  | _ => True

def Valid (p : Program) (vm : VM) (P : List Ptr) : Prop := Sound p vm P ∧ Tame p vm

/-- The counted pointers after the instruction. -/
def pointers (p : Program) (vm : VM) (P : List Ptr) : List Ptr :=
  match p.code (vm.fiber vm.loc).ip with
  | .ref ptr delta =>
    match ptr vm with
    | none => P
    | some q => if delta = 1 then q :: P else P.erase q
  | _ => P

/-- Executions of instructions that meet `V`. -/
inductive Run (p : Program) (V : VM → List Ptr → Prop) : VM × List Ptr → VM × List Ptr → Prop
  | nil {s : VM × List Ptr} : Run p V s s
  | cons {vm vm' : VM} {P : List Ptr} {s : VM × List Ptr} :
      Run p V s (vm, P) → V vm P → step p vm = .ok vm' → Run p V s (vm', pointers p vm P)

/-- Reachable states: a function of the program is called by the host. -/
def ReachBy (p : Program) (V : VM → List Ptr → Prop) (vm : VM) (P : List Ptr) : Prop :=
  ∃ size entry params vm0, start size entry params = .ok vm0 ∧ Entry p entry params.length ∧ Run p V (vm0, []) (vm, P)

/-- Reachable states of programs that meet all conditions. -/
def Reach (p : Program) : VM → List Ptr → Prop := ReachBy p (Valid p)

/-- Reachable states of all programs. -/
def ReachAny (p : Program) : VM → List Ptr → Prop := ReachBy p (Sound p)

/-- Executions during which fiber `k` does not run. -/
inductive Away (p : Program) (k : Nat) : VM × List Ptr → VM × List Ptr → Prop
  | nil {s : VM × List Ptr} : Away p k s s
  | cons {vm vm' : VM} {P : List Ptr} {s : VM × List Ptr} :
      Away p k s (vm, P) → vm.loc ≠ k → Valid p vm P → step p vm = .ok vm' → Away p k s (vm', pointers p vm P)

/-! ## Depth of calls -/

/-- Does the instruction about to be executed begin (+1) or end (-1) a call in fiber `k`? -/
def event (p : Program) (k : Nat) (vm : VM) : Int :=
  match p.code (vm.fiber vm.loc).ip with
  | .call _ | .callIndirect _ => if vm.loc = k then 1 else 0
  | .ext _ next => if (next vm).isSome ∧ vm.cur = k then 1 else 0
  | .ret _ => if vm.loc = k then -1 else 0
  | _ => 0

/-- A call in fiber `k`, in progress: the execution begins with a step that begins a call, and that call has not
ended.  The number is the depth of calls inside. -/
inductive InCall (p : Program) (k : Nat) (s : VM × List Ptr) : Int → VM × List Ptr → Prop
  | begin {vm' : VM} : Valid p s.1 s.2 → event p k s.1 = 1 → step p s.1 = .ok vm' →
      InCall p k s 1 (vm', pointers p s.1 s.2)
  | step {d : Int} {vm vm' : VM} {P : List Ptr} : InCall p k s d (vm, P) → Valid p vm P → step p vm = .ok vm' →
      0 < d + event p k vm → InCall p k s (d + event p k vm) (vm', pointers p vm P)

/-- The call has ended. -/
def Returned (p : Program) (k : Nat) (s : VM × List Ptr) (vm' : VM) : Prop :=
  ∃ d vm P, InCall p k s d (vm, P) ∧ Valid p vm P ∧ d + event p k vm = 0 ∧ step p vm = .ok vm'

/-- The parameters of the call about to be executed, in slots. -/
def callParams (p : Program) (vm : VM) (n : Nat) : Prop :=
  match p.code (vm.fiber vm.loc).ip with
  | .call e => Entry p e n
  | .callIndirect m => n = m
  | _ => False

end Umka.Frame
