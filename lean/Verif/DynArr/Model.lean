import Verif.DynArr.Spec
/-!
# Dynamic arrays: model

Models `doAllocDynArray`, `doGetEmptyDynArray` (umka_vm.c:1437-1468), the builtins `make`,
`makefromarr`, `makearr`, `copy`, `append`, `insert`, `delete`, `slice`, `len`, `cap`
(umka_vm.c:2224-2718, 2840-2904) and element access `doGetDynArrayPtr` (umka_vm.c:3644-3664).

A heap chunk that holds a dynamic array becomes a block: the header fields `len` and `capacity` and
`cap` item cells.  Byte offsets that the code computes as `index * itemSize` become cell numbers.
Every read or write of cells outside the block, and every use of the header of a null array, is the
distinct outcome `ub`.  A run-time error ends the program (`runtimeHandler` does not return).

Simplifications: reference counts are not tracked and blocks are never recycled (see the areas Heap
and RefCnt); the storage of the C heap itself (`malloc`) never fails; arguments are evaluated
before the call and do not change the array variable in between.
-/

namespace Umka.DynArr

/-- A heap chunk allocated by `doAllocDynArray` (umka_vm.c:1437-1458): `DynArrayDimensions`
followed by the items. -/
structure Block (α : Type) where
  len : Nat
  cap : Nat
  cells : List α
  deriving DecidableEq, Repr

inductive Fault where
  | err (e : Err)
  | ub
  deriving DecidableEq, Repr

abbrev Res (β : Type) := Except Fault β

/-- Blocks and variables.  `Nat → Arr`: each variable is a `DynArray` structure, of which only
`data` varies (umka_api.h `UmkaDynArray`). -/
structure State (α : Type) where
  blocks : List (Block α)
  vars : Nat → Arr

/-- The item type: its size in bytes, and whether values of it are handled by address
(`typeStructured`, umka_types.h). -/
structure Cfg where
  itemSize : Nat
  structured : Bool

/-- `INT_MAX` (C limits.h, 32-bit int). -/
def intMax : Int := 2147483647
/-- `INT_MIN`. -/
def intMin : Int := -2147483648

/-- `align` (umka_common.h:274-277). -/
def align (size alignment : Int) : Int := ((size + (alignment - 1)) / alignment) * alignment

/-- The size check of `chunkAlloc` (umka_vm.c:708-711): `sizeof(HeapChunk)` = 40. -/
def chunkFits (size : Int) : Bool := decide (align (40 + align (size + 1) 8) 64 ≤ intMax)

/-- The capacity computed by `doAllocDynArray` (umka_vm.c:1445-1452);
`MEM_MIN_FREE_HEAP` = 1024. -/
def capacityFor (itemSize : Nat) (len : Int) : Int :=
  let cap := 2 * (len + 1)
  let cap := if cap * itemSize > intMax - 1024 then (intMax - 1024) / itemSize else cap
  if cap < len then len else cap

/-- The checks of `doAllocDynArray` (umka_vm.c:1442-1454): the capacity of a new array of `len`
items; `sizeof(DynArrayDimensions)` = 16. -/
def allocCap (c : Cfg) (len : Int) : Except Err Nat :=
  if len < 0 ∨ len > intMax then .error .length
  else
    let cap := capacityFor c.itemSize len
    if chunkFits (16 + cap * c.itemSize) then .ok cap.toNat else .error .memory

/-- `doAllocDynArray` (umka_vm.c:1437-1458): a zero-filled block (`memset` in `chunkAlloc`). -/
def alloc {α : Type} (c : Cfg) (zero : α) (s : State α) (len : Int) : Res (State α × Arr) :=
  match allocCap c len with
  | .error e => .error (.err e)
  | .ok cap =>
    .ok (⟨s.blocks ++ [⟨len.toNat, cap, List.replicate cap zero⟩], s.vars⟩, .blk s.blocks.length)

/-- Assignment to an array variable. -/
def State.setVar {α : Type} (s : State α) (v : Nat) (a : Arr) : State α :=
  { s with vars := fun w => if w = v then a else s.vars w }

/-- `if (!array->data) doGetEmptyDynArray(array, arrayType);` (umka_vm.c:1461-1468, 2451-2452). -/
def touch {α : Type} (s : State α) (v : Nat) : State α :=
  if s.vars v = .null then s.setVar v .empty else s

/-- `getDims(array)->len` (umka_common.h:286-289). -/
def getLen {α : Type} (s : State α) : Arr → Res Nat
  | .null => .error .ub
  | .empty => .ok 0
  | .blk r => match s.blocks[r]? with
    | some b => .ok b.len
    | none => .error .ub

/-- `getDims(array)->capacity`. -/
def getCap {α : Type} (s : State α) : Arr → Res Nat
  | .null => .error .ub
  | .empty => .ok 0
  | .blk r => match s.blocks[r]? with
    | some b => .ok b.cap
    | none => .error .ub

/-- `getDims(array)->len = n`.  The header of the empty array is shared by the whole program:
any value but 0 would corrupt it. -/
def setLen {α : Type} (s : State α) (a : Arr) (n : Nat) : Res (State α) :=
  match a with
  | .null => .error .ub
  | .empty => if n = 0 then .ok s else .error .ub
  | .blk r => match s.blocks[r]? with
    | some b => .ok ⟨s.blocks.set r ⟨n, b.cap, b.cells⟩, s.vars⟩
    | none => .error .ub

/-- The source of a `memmove`: `n` items from cell `i` on. -/
def readCells {α : Type} (s : State α) (a : Arr) (i n : Nat) : Res (List α) :=
  match a with
  | .null => .error .ub
  | .empty => if i = 0 ∧ n = 0 then .ok [] else .error .ub
  | .blk r => match s.blocks[r]? with
    | some b => if i + n ≤ b.cells.length then .ok ((b.cells.drop i).take n) else .error .ub
    | none => .error .ub

/-- The destination of a `memmove`: the items `xs` go to the cells from `i` on. -/
def writeCells {α : Type} (s : State α) (a : Arr) (i : Nat) (xs : List α) : Res (State α) :=
  match a with
  | .null => .error .ub
  | .empty => if i = 0 ∧ xs = [] then .ok s else .error .ub
  | .blk r => match s.blocks[r]? with
    | some b =>
      if i + xs.length ≤ b.cells.length then
        .ok ⟨s.blocks.set r ⟨b.len, b.cap, b.cells.take i ++ xs ++ b.cells.drop (i + xs.length)⟩,
          s.vars⟩
      else .error .ub
    | none => .error .ub

/-- `doGetDynArrayPtr` (umka_vm.c:3644-3664): the cell that `array[index]` denotes. -/
def elemPtr {α : Type} (s : State α) (a : Arr) (index : Int) : Res Nat :=
  if a = .null then .error (.err .null)
  else match getLen s a with
    | .error e => .error e
    | .ok len =>
      if index < 0 ∨ index > (len : Int) - 1 then .error (.err .index) else .ok index.toNat

/-- The single cell read through an element address. -/
def readCell {α : Type} (s : State α) (a : Arr) (i : Nat) : Res α :=
  match readCells s a i 1 with
  | .ok [x] => .ok x
  | .ok _ => .error .ub
  | .error e => .error e

/-- What the `item` argument of append and insert points to when the builtin starts: a temporary
holding a value, a cell of an array, or an array (umka_expr.c:1073-1101, 1131-1149). -/
inductive Item (α : Type) where
  | val (x : α)
  | cell (a : Arr) (i : Nat)
  | arr (a : Arr)

/-- Evaluation of an `item` argument that is a single item.  Items that are not structured are
copied to a temporary (umka_expr.c:1090-1098, 1140-1148); structured ones are passed by address. -/
def evalItem {α : Type} (c : Cfg) (s : State α) : Src α → Res (Item α)
  | .val x => .ok (.val x)
  | .elem v j =>
    match elemPtr s (s.vars v) j with
    | .error e => .error e
    | .ok i =>
      if c.structured then .ok (.cell (s.vars v) i)
      else match readCell s (s.vars v) i with
        | .ok x => .ok (.val x)
        | .error e => .error e

/-- `rhsLen` (umka_vm.c:2455, 2468). -/
def itemLen {α : Type} (s : State α) : Item α → Res Nat
  | .val _ => .ok 1
  | .cell _ _ => .ok 1
  | .arr a => getLen s a

/-- The items at `rhs` (umka_vm.c:2454, 2467) at the time of the `memmove`. -/
def readItem {α : Type} (s : State α) (n : Nat) : Item α → Res (List α)
  | .val x => .ok [x]
  | .cell a i => readCells s a i 1
  | .arr a => readCells s a 0 n

/-- The part of `doBuiltinAppend` after the arguments (umka_vm.c:2471-2495). -/
def appendTo {α : Type} (c : Cfg) (zero : α) (s : State α) (a : Arr) (item : Item α) :
    Res (State α × Arr) := do
  let rhsLen ← itemLen s item
  let len ← getLen s a
  let cap ← getCap s a
  let newLen := len + rhsLen
  if newLen ≤ cap then
    let xs ← readItem s rhsLen item
    let s ← writeCells s a len xs
    let s ← setLen s a newLen
    return (s, a)
  else
    let (s, res) ← alloc c zero s newLen
    let old ← readCells s a 0 len
    let s ← writeCells s res 0 old
    let xs ← readItem s rhsLen item
    let s ← writeCells s res len xs
    return (s, res)

/-- `doBuiltinAppend` (umka_vm.c:2439-2499) with a single item. -/
def append {α : Type} (c : Cfg) (zero : α) (s : State α) (src : Nat) (item : Src α) :
    Res (State α × Arr) := do
  let it ← evalItem c s item
  let s := touch s src
  appendTo c zero s (s.vars src) it

/-- `doBuiltinAppend` (umka_vm.c:2439-2499) with an array: a null array becomes the empty one
(umka_vm.c:2451-2452, 2464-2465). -/
def appendAll {α : Type} (c : Cfg) (zero : α) (s : State α) (src rhs : Nat) :
    Res (State α × Arr) :=
  let s := touch s src
  let s := touch s rhs
  appendTo c zero s (s.vars src) (.arr (s.vars rhs))

/-- The part of `doBuiltinInsert` after the arguments (umka_vm.c:2517-2547). -/
def insertTo {α : Type} (c : Cfg) (zero : α) (s : State α) (a : Arr) (index : Int)
    (item : Item α) : Res (State α × Arr) := do
  let len ← getLen s a
  if index < 0 ∨ index > len then .error (.err .index)
  else
    let i := index.toNat
    let cap ← getCap s a
    if len + 1 ≤ cap then
      let tail ← readCells s a i (len - i)
      let s ← writeCells s a (i + 1) tail
      let xs ← readItem s 1 item
      let s ← writeCells s a i xs
      let s ← setLen s a (len + 1)
      return (s, a)
    else
      let (s, res) ← alloc c zero s (len + 1)
      let front ← readCells s a 0 i
      let s ← writeCells s res 0 front
      let tail ← readCells s a i (len - i)
      let s ← writeCells s res (i + 1) tail
      let xs ← readItem s 1 item
      let s ← writeCells s res i xs
      return (s, res)

/-- `doBuiltinInsert` (umka_vm.c:2503-2550). -/
def insert {α : Type} (c : Cfg) (zero : α) (s : State α) (src : Nat) (index : Int)
    (item : Src α) : Res (State α × Arr) := do
  let it ← evalItem c s item
  let s := touch s src
  insertTo c zero s (s.vars src) index it

/-- `doBuiltinDeleteDynArray` (umka_vm.c:2553-2578). -/
def delete {α : Type} (s : State α) (a : Arr) (index : Int) : Res (State α × Arr) :=
  if a = .null then .error (.err .null)
  else do
    let len ← getLen s a
    if index < 0 ∨ index > (len : Int) - 1 then .error (.err .index)
    else
      let i := index.toNat
      let tail ← readCells s a (i + 1) (len - i - 1)
      let s ← writeCells s a i tail
      let s ← setLen s a (len - 1)
      return (s, a)

/-- The compiler passes `INT_MIN` for a missing end index (umka_expr.c:1203-1211). -/
def endArg : Option Int → Int
  | none => intMin
  | some e => e

/-- `doBuiltinSlice` for dynamic arrays (umka_vm.c:2644-2708); `endIndex` as passed. -/
def slice {α : Type} (c : Cfg) (zero : α) (s : State α) (src : Nat) (startIndex endIndex : Int) :
    Res (State α × Arr) := do
  let s := touch s src
  let a := s.vars src
  let len ← getLen s a
  let endIndex := if endIndex = intMin then (len : Int) else endIndex
  let endIndex := if endIndex < 0 then endIndex + len else endIndex
  if startIndex < 0 then .error (.err .index)
  else if endIndex < startIndex ∨ endIndex > len then .error (.err .index)
  else
    let (s, res) ← alloc c zero s (endIndex - startIndex)
    let n ← getLen s res
    let xs ← readCells s a startIndex.toNat n
    let s ← writeCells s res 0 xs
    return (s, res)

/-- `doBuiltinCopyDynArray` (umka_vm.c:2379-2401). -/
def copy {α : Type} (c : Cfg) (zero : α) (s : State α) (a : Arr) : Res (State α × Arr) :=
  if a = .null then .ok (s, .null)
  else do
    let len ← getLen s a
    let (s, res) ← alloc c zero s len
    let xs ← readCells s a 0 len
    let s ← writeCells s res 0 xs
    return (s, res)

/-- `doBuiltinMakeFromArr` (umka_vm.c:2257-2274): `l` is the static array. -/
def makeFromArr {α : Type} (c : Cfg) (zero : α) (s : State α) (l : List α) :
    Res (State α × Arr) := do
  let (s, res) ← alloc c zero s l.length
  let s ← writeCells s res 0 l
  return (s, res)

/-- `doBuiltinMakeArr` (umka_vm.c:2297-2322): a static array of `n` items. -/
def makeArr {α : Type} (zero : α) (s : State α) (a : Arr) (n : Nat) : Res (List α) :=
  if a = .null then .ok (List.replicate n zero)
  else do
    let len ← getLen s a
    if len > n then .error (.err .tooLong)
    else
      let xs ← readCells s a 0 len
      return xs ++ (List.replicate n zero).drop len

/-- One operation of a program. -/
def step {α : Type} (c : Cfg) (zero : α) (s : State α) : Op α → Res (State α × Out α)
  | .make dst n => do
    let (s, res) ← alloc c zero s n
    return (s.setVar dst res, .unit)
  | .fromStatic dst l => do
    let (s, res) ← makeFromArr c zero s l
    return (s.setVar dst res, .unit)
  | .toStatic src n => do return (s, .items (← makeArr zero s (s.vars src) n))
  | .assign dst src => .ok (s.setVar dst (s.vars src), .unit)
  | .copy dst src => do
    let (s, res) ← copy c zero s (s.vars src)
    return (s.setVar dst res, .unit)
  | .append dst src item => do
    let (s, res) ← append c zero s src item
    return (s.setVar dst res, .unit)
  | .appendAll dst src rhs => do
    let (s, res) ← appendAll c zero s src rhs
    return (s.setVar dst res, .unit)
  | .insert dst src i item => do
    let (s, res) ← insert c zero s src i item
    return (s.setVar dst res, .unit)
  | .delete dst src i => do
    let (s, res) ← delete s (s.vars src) i
    return (s.setVar dst res, .unit)
  | .slice dst src start stop => do
    let (s, res) ← slice c zero s src start (endArg stop)
    return (s.setVar dst res, .unit)
  | .get src i => do
    let k ← elemPtr s (s.vars src) i
    return (s, .item (← readCell s (s.vars src) k))
  | .set dst i x => do
    let k ← elemPtr s (s.vars dst) i
    return (← writeCells s (s.vars dst) k [x], .unit)
  -- `array->data ? getDims(array)->len : 0` (umka_vm.c:2846-2853)
  | .len src => if s.vars src = .null then .ok (s, .num 0) else do
    return (s, .num (← getLen s (s.vars src)))
  -- `array->data ? getDims(array)->capacity : 0` (umka_vm.c:2880-2888)
  | .cap src => if s.vars src = .null then .ok (s, .num 0) else do
    return (s, .num (← getCap s (s.vars src)))

/-- A whole program: a sequence of operations with its outputs. -/
def run {α : Type} (c : Cfg) (zero : α) :
    State α → List (Op α) → Res (State α × List (Out α))
  | s, [] => .ok (s, [])
  | s, op :: ops => do
    let (s, o) ← step c zero s op
    let (s, os) ← run c zero s ops
    return (s, o :: os)

/-- All variables are null at the start. -/
def init {α : Type} : State α := ⟨[], fun _ => .null⟩

end Umka.DynArr
