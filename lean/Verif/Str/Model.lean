import Verif.Str.Spec
/-!
# Strings: model

Models `doAllocStr`, `doGetEmptyStr` (umka_vm.c:1404-1434), string `+` and `+=` (umka_vm.c:3426-3462),
`slice`, `copy`, `len`, `cap` on strings, the conversions `makefromstr`, `makestr`
(umka_vm.c:2277-2376, 2644-2718, 2840-2904), indexing (umka_vm.c:3611-3641) and string literals as
stored by `storageAddStr` (umka_common.c:91-102).

A string buffer is a block: the header fields `len` and `capacity` and its byte cells.  A heap chunk
has one more byte than its capacity (the footer, umka_vm.c:707-708).  Reads and writes outside the
cells, and signed integer overflow, are the outcome `ub`.  Reference counts are not tracked and
blocks are never recycled.
-/

namespace Umka.Str

structure Block where
  len : Nat
  cap : Nat
  cells : List Nat
  deriving DecidableEq, Repr

inductive Fault where
  | err (e : Err)
  | ub
  deriving DecidableEq, Repr

abbrev Res (β : Type) := Except Fault β

structure State where
  blocks : List Block
  vars : Nat → Ref

def intMax : Int := 2147483647
def intMin : Int := -2147483648

/-- `align` (umka_common.h:274-277). -/
def align (size alignment : Int) : Int := ((size + (alignment - 1)) / alignment) * alignment

/-- The size check of `chunkAlloc` (umka_vm.c:708-711): `sizeof(HeapChunk)` = 40. -/
def chunkFits (size : Int) : Bool :=
  decide (0 ≤ size ∧ align (40 + align (size + 1) 8) 64 ≤ intMax)

/-- The capacity computed by `doAllocStr` (umka_vm.c:1406-1411);
`MEM_MIN_FREE_HEAP` = 1024. -/
def capacityFor (len : Int) : Int :=
  let cap := 2 * (len + 1)
  let cap := if cap > intMax - 1024 then intMax - 1024 else cap
  if cap < len then len else cap

/-- The capacity of a new string, or the failure of `chunkAlloc` (umka_vm.c:1413);
`sizeof(StrDimensions)` = 16. -/
def allocCap (len : Int) : Except Err Nat :=
  let cap := capacityFor len
  if chunkFits (16 + cap) then .ok cap.toNat else .error .memory

/-- The same for a length that is known to be a natural number. -/
def allocN (n : Nat) : Except Err Nat := allocCap n

/-- The static empty string of `doGetEmptyStr` (umka_vm.c:1423-1434). -/
def emptyBlock : Block := ⟨0, 1, [0]⟩

def State.setVar (s : State) (v : Nat) (a : Ref) : State :=
  { s with vars := fun w => if w = v then a else s.vars w }

/-- `if (!str) str = doGetEmptyStr();` -/
def nonNull : Ref → Ref
  | .null => .empty
  | a => a

/-- The buffer behind a string pointer. -/
def deref (s : State) : Ref → Res Block
  | .null => .error .ub
  | .empty => .ok emptyBlock
  | .blk r => match s.blocks[r]? with
    | some b => .ok b
    | none => .error .ub

/-- Changes a buffer.  The static empty string must stay as it is. -/
def store (s : State) (a : Ref) (b : Block) : Res State :=
  match a with
  | .null => .error .ub
  | .empty => if b = emptyBlock then .ok s else .error .ub
  | .blk r => if r < s.blocks.length then .ok ⟨s.blocks.set r b, s.vars⟩ else .error .ub

/-- The source of a `memmove`. -/
def readBytes (s : State) (a : Ref) (i n : Nat) : Res (List Nat) := do
  let b ← deref s a
  if i + n ≤ b.cells.length then .ok ((b.cells.drop i).take n) else .error .ub

/-- The destination of a `memmove`. -/
def writeBytes (s : State) (a : Ref) (i : Nat) (xs : List Nat) : Res State := do
  let b ← deref s a
  if i + xs.length ≤ b.cells.length then
    store s a ⟨b.len, b.cap, b.cells.take i ++ xs ++ b.cells.drop (i + xs.length)⟩
  else .error .ub

/-- `getStrDims(str)->len` (umka_common.h:280-283). -/
def getLen (s : State) (a : Ref) : Res Nat := do return (← deref s a).len

/-- `getStrDims(str)->capacity`. -/
def getCap (s : State) (a : Ref) : Res Nat := do return (← deref s a).cap

/-- `getStrDims(str)->len = n`. -/
def setLen (s : State) (a : Ref) (n : Nat) : Res State := do
  let b ← deref s a
  store s a ⟨n, b.cap, b.cells⟩

/-- `doAllocStr` (umka_vm.c:1404-1420). -/
def allocStr (s : State) (len : Int) : Res (State × Ref) :=
  match allocCap len with
  | .error e => .error (.err e)
  | .ok cap => do
    let s : State := ⟨s.blocks ++ [⟨len.toNat, cap, List.replicate (cap + 1) 0⟩], s.vars⟩
    let a : Ref := .blk (s.blocks.length - 1)
    let s ← writeBytes s a len.toNat [0]
    return (s, a)

/-- `+` and `+=` on strings (umka_vm.c:3438-3461).  The sums are of type `int`. -/
def concat (isPlusEq : Bool) (s : State) (lhs rhs : Ref) : Res (State × Ref) := do
  let lhsStr := nonNull lhs
  let rhsStr := nonNull rhs
  let lhsLen ← getLen s lhsStr
  let rhsLen ← getLen s rhsStr
  let cap ← getCap s lhsStr
  if (lhsLen + rhsLen : Int) > intMax then .error .ub
  else if isPlusEq ∧ (lhsLen + rhsLen + 1 : Int) > intMax then .error .ub
  else
    let inPlace := isPlusEq && decide (cap ≥ lhsLen + rhsLen + 1)
    let (s, buf) ←
      (if inPlace then .ok (s, lhsStr)
       else do
        let (s, buf) ← allocStr s (lhsLen + rhsLen)
        let xs ← readBytes s lhsStr 0 lhsLen
        let s ← writeBytes s buf 0 xs
        return (s, buf) : Res (State × Ref))
    let xs ← readBytes s rhsStr 0 (rhsLen + 1)
    let s ← writeBytes s buf lhsLen xs
    let s ← setLen s buf (lhsLen + rhsLen)
    return (s, buf)

/-- The compiler passes `INT_MIN` for a missing end index (umka_expr.c:1203-1211). -/
def endArg : Option Int → Int
  | none => intMin
  | some e => e

/-- `doBuiltinSlice` for strings (umka_vm.c:2668-2717). -/
def slice (s : State) (src : Ref) (startIndex endIndex : Int) : Res (State × Ref) := do
  let str := nonNull src
  let len ← getLen s str
  let endIndex := if endIndex = intMin then (len : Int) else endIndex
  let endIndex := if endIndex < 0 then endIndex + len else endIndex
  if startIndex < 0 then .error (.err .index)
  else if endIndex < startIndex ∨ endIndex > len then .error (.err .index)
  else
    let n := (endIndex - startIndex).toNat
    let (s, substr) ← allocStr s (endIndex - startIndex)
    let xs ← readBytes s str startIndex.toNat n
    let s ← writeBytes s substr 0 xs
    let s ← writeBytes s substr n [0]
    return (s, substr)

/-- `strcpy`: the bytes up to and including the first zero. -/
def cString (b : Block) : Res (List Nat) :=
  if 0 ∈ b.cells then .ok (b.cells.takeWhile (· ≠ 0) ++ [0]) else .error .ub

/-- `doBuiltinCopyStr` (umka_vm.c:2363-2376). -/
def copy (s : State) (str : Ref) : Res (State × Ref) :=
  if str = .null then .ok (s, .null)
  else do
    let len ← getLen s str
    let (s, res) ← allocStr s len
    let xs ← cString (← deref s str)
    let s ← writeBytes s res 0 xs
    return (s, res)

/-- `doGetArrayPtr` for strings (umka_vm.c:3622-3634) and the load of the byte. -/
def index (s : State) (str : Ref) (i : Int) : Res Nat := do
  let data := nonNull str
  let len ← getLen s data
  if i < 0 ∨ i > (len : Int) - 1 then .error (.err .index)
  else
    match ← readBytes s data i.toNat 1 with
    | [x] => .ok x
    | _ => .error .ub

/-- `doBuiltinMakeFromStr` (umka_vm.c:2277-2291): the items of the new array. -/
def makeFromStr (s : State) (src : Ref) : Res (List Nat) := do
  let src := nonNull src
  let len ← getLen s src
  readBytes s src 0 len

/-- `while (len < getDims(src)->len && ((const char *)src->data)[len]) len++;`
(umka_vm.c:2351-2353). -/
def charsLen : List Nat → Nat
  | [] => 0
  | x :: l => if x = 0 then 0 else charsLen l + 1

/-- `doBuiltinMakeStr` for dynamic arrays (umka_vm.c:2340-2359); `none` is a null array. -/
def makeStr (s : State) : Option (List Nat) → Res (State × Ref)
  | none => .ok (s, .empty)
  | some l => do
    let len := charsLen l
    let (s, dest) ← allocStr s len
    let s ← writeBytes s dest 0 (l.take len)
    return (s, dest)

/-- `doBuiltinMakeStr` for characters (umka_vm.c:2329-2339). -/
def makeStrChar (s : State) (ch : Nat) : Res (State × Ref) :=
  if ch ≠ 0 then do
    let (s, dest) ← allocStr s 1
    let s ← writeBytes s dest 0 [ch]
    let s ← writeBytes s dest 1 [0]
    return (s, dest)
  else .ok (s, .empty)

/-- A literal: `storageAddStr` (umka_common.c:91-102) filled by the lexer, which refuses zero bytes
(umka_lexer.c:807-808) and counts in `int`. -/
def literal (s : State) (l : List Nat) : Res (State × Ref) :=
  if 0 ∈ l ∨ l.length > 2147483646 then .error (.err .literal)
  else .ok (⟨s.blocks ++ [⟨l.length, l.length + 1, l ++ [0]⟩], s.vars⟩, .blk s.blocks.length)

/-- One operation of a program. -/
def step (s : State) : Op → Res (State × Out)
  | .lit dst l => do
    let (s, a) ← literal s l
    return (s.setVar dst a, .unit)
  | .assign dst src => .ok (s.setVar dst (s.vars src), .unit)
  | .plus dst a b => do
    let (s, r) ← concat false s (s.vars a) (s.vars b)
    return (s.setVar dst r, .unit)
  | .plusEq a b => do
    let (s, r) ← concat true s (s.vars a) (s.vars b)
    return (s.setVar a r, .unit)
  | .slice dst src start stop => do
    let (s, r) ← slice s (s.vars src) start (endArg stop)
    return (s.setVar dst r, .unit)
  | .copy dst src => do
    let (s, r) ← copy s (s.vars src)
    return (s.setVar dst r, .unit)
  -- `str ? getStrDims(str)->len : 0` (umka_vm.c:2854-2860)
  | .len src => if s.vars src = .null then .ok (s, .num 0) else do
    return (s, .num (← getLen s (s.vars src)))
  -- `str ? getStrDims(str)->capacity : 0` (umka_vm.c:2889-2895)
  | .cap src => if s.vars src = .null then .ok (s, .num 0) else do
    return (s, .num (← getCap s (s.vars src)))
  | .get src i => do return (s, .byte (← index s (s.vars src) i))
  | .toChars src => do return (s, .bytes (← makeFromStr s (s.vars src)))
  | .fromChars dst l => do
    let (s, r) ← makeStr s l
    return (s.setVar dst r, .unit)
  | .fromChar dst ch => do
    let (s, r) ← makeStrChar s ch
    return (s.setVar dst r, .unit)

def run : State → List Op → Res (State × List Out)
  | s, [] => .ok (s, [])
  | s, op :: ops => do
    let (s, o) ← step s op
    let (s, os) ← run s ops
    return (s, o :: os)

def init : State := ⟨[], fun _ => .null⟩

end Umka.Str
