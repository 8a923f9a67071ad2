/-!
# Dynamic arrays: vocabulary and specification

The specification is a machine whose arrays are plain lists.  A variable holds a reference to an
*object* (or is null, or refers to the empty array that owns no storage).  An object is a list
together with a capacity.  Several variables may refer to the same object.
-/

namespace Umka.DynArr

/-- The value of a dynamic array variable. -/
inductive Arr where
  | null
  | empty
  | blk (r : Nat)
  deriving DecidableEq, Repr

/-- Run-time errors. -/
inductive Err where
  | null
  | index
  | length
  | memory
  | tooLong
  deriving DecidableEq, Repr

/-- The item that append or insert adds: a computed value, or the element `v[j]`. -/
inductive Src (α : Type) where
  | val (x : α)
  | elem (v : Nat) (j : Int)
  deriving Repr

/-- Operations of a program on its dynamic array variables. -/
inductive Op (α : Type) where
  | make (dst : Nat) (n : Int)
  | fromStatic (dst : Nat) (l : List α)
  | toStatic (src : Nat) (n : Nat)
  | assign (dst src : Nat)
  | copy (dst src : Nat)
  | append (dst src : Nat) (item : Src α)
  | appendAll (dst src rhs : Nat)
  | insert (dst src : Nat) (i : Int) (item : Src α)
  | delete (dst src : Nat) (i : Int)
  | slice (dst src : Nat) (start : Int) (stop : Option Int)
  | get (src : Nat) (i : Int)
  | set (dst : Nat) (i : Int) (x : α)
  | len (src : Nat)
  | cap (src : Nat)
  deriving Repr

inductive Out (α : Type) where
  | unit
  | item (x : α)
  | items (l : List α)
  | num (n : Nat)
  deriving DecidableEq, Repr

deriving instance DecidableEq for Except

namespace Spec

structure Obj (α : Type) where
  items : List α
  cap : Nat
  deriving DecidableEq, Repr

structure SState (α : Type) where
  objs : List (Obj α)
  vars : Nat → Arr

/-- The list a reference stands for. -/
def SState.items {α : Type} (s : SState α) : Arr → List α
  | .null => []
  | .empty => []
  | .blk r => match s.objs[r]? with
    | some o => o.items
    | none => []

def SState.cap {α : Type} (s : SState α) : Arr → Nat
  | .null => 0
  | .empty => 0
  | .blk r => match s.objs[r]? with
    | some o => o.cap
    | none => 0

def SState.setVar {α : Type} (s : SState α) (v : Nat) (a : Arr) : SState α :=
  { s with vars := fun w => if w = v then a else s.vars w }

/-- An operation on a null array first turns it into the empty array. -/
def SState.touch {α : Type} (s : SState α) (v : Nat) : SState α :=
  if s.vars v = .null then s.setVar v .empty else s

/-- Replaces the items of an object: every reference to it sees the change. -/
def SState.mutate {α : Type} (s : SState α) (a : Arr) (l : List α) : SState α :=
  match a with
  | .blk r => match s.objs[r]? with
    | some o => { s with objs := s.objs.set r ⟨l, o.cap⟩ }
    | none => s
  | _ => s

/-- Makes a new object.  `alloc n` decides on the capacity for `n` items, or fails. -/
def SState.fresh {α : Type} (alloc : Int → Except Err Nat) (s : SState α) (dst : Nat) (l : List α) :
    Except Err (SState α) :=
  match alloc l.length with
  | .ok cap => .ok (SState.setVar ⟨s.objs ++ [⟨l, cap⟩], s.vars⟩ dst (.blk s.objs.length))
  | .error e => .error e

/-- Gives `dst` the list `l` that replaces the contents of `a`: in place if it fits. -/
def SState.update {α : Type} (alloc : Int → Except Err Nat) (s : SState α) (dst : Nat) (a : Arr)
    (l : List α) : Except Err (SState α) :=
  if l.length ≤ s.cap a then .ok ((s.mutate a l).setVar dst a) else s.fresh alloc dst l

/-- `l[i]` with an index check. -/
def at? {α : Type} (l : List α) (i : Int) : Except Err α :=
  if 0 ≤ i then
    match l[i.toNat]? with
    | some x => .ok x
    | none => .error .index
  else .error .index

/-- Element access: there are no elements in a null array. -/
def SState.elem {α : Type} (s : SState α) (v : Nat) (i : Int) : Except Err α :=
  if s.vars v = .null then .error .null else at? (s.items (s.vars v)) i

/-- The item denoted by the last argument of append or insert. -/
def SState.src {α : Type} (s : SState α) : Src α → Except Err α
  | .val x => .ok x
  | .elem v j => s.elem v j

/-- Where a slice stops: at the end if no index is given, counted from the end if it is negative. -/
def stopAt (len : Nat) : Option Int → Int
  | none => len
  | some e => if e < 0 then e + len else e

/-- One operation. -/
def sstep {α : Type} (zero : α) (alloc : Int → Except Err Nat) (s : SState α) :
    Op α → Except Err (SState α × Out α)
  | .make dst n =>
    if n < 0 then .error .length
    else do return (← s.fresh alloc dst (List.replicate n.toNat zero), .unit)
  | .fromStatic dst l => do return (← s.fresh alloc dst l, .unit)
  | .toStatic src n =>
    let l := s.items (s.vars src)
    if n < l.length then .error .tooLong
    else .ok (s, .items (l ++ List.replicate (n - l.length) zero))
  | .assign dst src => .ok (s.setVar dst (s.vars src), .unit)
  | .copy dst src =>
    if s.vars src = .null then .ok (s.setVar dst .null, .unit)
    else do return (← s.fresh alloc dst (s.items (s.vars src)), .unit)
  | .append dst src item => do
    let x ← s.src item
    let s := s.touch src
    let a := s.vars src
    return (← s.update alloc dst a (s.items a ++ [x]), .unit)
  | .appendAll dst src rhs => do
    let s := (s.touch src).touch rhs
    let a := s.vars src
    return (← s.update alloc dst a (s.items a ++ s.items (s.vars rhs)), .unit)
  | .insert dst src i item => do
    let x ← s.src item
    let s := s.touch src
    let a := s.vars src
    let l := s.items a
    if i < 0 ∨ i > l.length then .error .index
    else return (← s.update alloc dst a (l.take i.toNat ++ [x] ++ l.drop i.toNat), .unit)
  | .delete dst src i =>
    let a := s.vars src
    let l := s.items a
    if a = .null then .error .null
    else if i < 0 ∨ i ≥ l.length then .error .index
    else .ok ((s.mutate a (l.eraseIdx i.toNat)).setVar dst a, .unit)
  | .slice dst src start stop =>
    let s := s.touch src
    let l := s.items (s.vars src)
    let e := stopAt l.length stop
    if start < 0 ∨ e < start ∨ e > l.length then .error .index
    else do return (← s.fresh alloc dst ((l.take e.toNat).drop start.toNat), .unit)
  | .get src i => do return (s, .item (← s.elem src i))
  | .set dst i x => do
    let _ ← s.elem dst i
    return (s.mutate (s.vars dst) ((s.items (s.vars dst)).set i.toNat x), .unit)
  | .len src => .ok (s, .num (s.items (s.vars src)).length)
  | .cap src => .ok (s, .num (s.cap (s.vars src)))

/-- A sequence of operations, with its outputs. -/
def srun {α : Type} (zero : α) (alloc : Int → Except Err Nat) :
    SState α → List (Op α) → Except Err (SState α × List (Out α))
  | s, [] => .ok (s, [])
  | s, op :: ops => do
    let (s, o) ← sstep zero alloc s op
    let (s, os) ← srun zero alloc s ops
    return (s, o :: os)

/-- `insert(a, i, a[j])` with structured items, spare capacity and `j > i`. -/
def InsertsShifted {α : Type} (structured : Bool) (s : SState α) (src : Nat) (i : Int) (v : Nat)
    (j : Int) : Prop :=
  structured = true ∧ s.vars v = s.vars src ∧ 0 ≤ i ∧ i < j ∧
    j < (s.items (s.vars src)).length ∧ (s.items (s.vars src)).length + 1 ≤ s.cap (s.vars src)

instance {α : Type} (structured : Bool) (s : SState α) (src : Nat) (i : Int) (v : Nat) (j : Int) :
    Decidable (InsertsShifted structured s src i v j) := by unfold InsertsShifted; infer_instance

/-- The operation that the implementation really performs.  It differs from the one asked for in two
cases: `insert(a, i, a[j])` shifts the items before it reads `a[j]`, and so inserts `a[j - 1]`; an
explicit end index of -2147483648 in `slice` is taken for a missing one. -/
def actual {α : Type} (structured : Bool) (s : SState α) : Op α → Op α
  | .insert dst src i (.elem v j) =>
    if InsertsShifted structured s src i v j then .insert dst src i (.elem v (j - 1))
    else .insert dst src i (.elem v j)
  | .slice dst src start stop =>
    if stop = some (-2147483648) then .slice dst src start none else .slice dst src start stop
  | op => op

/-- A sequence of operations as the implementation performs it. -/
def srunActual {α : Type} (zero : α) (alloc : Int → Except Err Nat) (structured : Bool) :
    SState α → List (Op α) → Except Err (SState α × List (Out α))
  | s, [] => .ok (s, [])
  | s, op :: ops => do
    let (s, o) ← sstep zero alloc s (actual structured s op)
    let (s, os) ← srunActual zero alloc structured s ops
    return (s, o :: os)

/-- No operation of the sequence meets one of the two exceptional cases. -/
def RegularRun {α : Type} (zero : α) (alloc : Int → Except Err Nat) (structured : Bool) :
    SState α → List (Op α) → Prop
  | _, [] => True
  | s, op :: ops =>
    (match op with
      | .insert _ src i (.elem v j) => ¬InsertsShifted structured s src i v j
      | .slice _ _ _ stop => stop ≠ some (-2147483648)
      | _ => True) ∧
    ∀ s' o, sstep zero alloc s op = .ok (s', o) → RegularRun zero alloc structured s' ops

def sinit {α : Type} : SState α := ⟨[], fun _ => .null⟩

end Spec
end Umka.DynArr
