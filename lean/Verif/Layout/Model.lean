import Verif.Layout.Spec
/-!
# Layout: model

How the compiler lays out structures (typeAddField), arrays (typeResizeArray), parameters
(typeMakeStackFrameLayout) and local variables (identAllocStack).  `int` is 32 bits; an `int`
operation that overflows is `ub`, a conversion to `int` wraps around (as GCC and Clang define it).
-/

namespace Umka.Layout
open Spec (Part)

inductive Err where
  | structTooLarge | arrayTooLarge | illegalType | stackOverflow | noFrame
  deriving DecidableEq, Repr

inductive Fault where
  | err (e : Err)
  | ub
  deriving DecidableEq, Repr

abbrev Res (α : Type) := Except Fault α

def intMax : Int := 2147483647

/-- Conversion to `int`. -/
def toInt (x : Int) : Int := (x + 2147483648) % 4294967296 - 2147483648

/-- `int` addition or subtraction with the exact result `x`. -/
def checked (x : Int) : Res Int := if -2147483648 ≤ x ∧ x ≤ intMax then .ok x else .error .ub

/-- `align` (umka_common.h:274-277). -/
def align (size alignment : Int) : Int := Int.tdiv (size + (alignment - 1)) alignment * alignment

/-! ## Types -/

/-- Types that are not built from fields or items: numbers, pointers, strings, fibers, functions
(umka_types.c:194-213, 231-232). -/
inductive Prim where
  | bytes1 | bytes2 | bytes4 | bytes8
  | dynArray
  | map
  deriving DecidableEq, Repr

mutual
/-- Types; structures, interfaces and closures are built by `typeAddField`. -/
inductive Ty where
  | prim (p : Prim)
  | array (numItems : Nat) (base : Ty)
  | struct (fields : Fields)
/-- Fields in the order in which they are added. -/
inductive Fields where
  | none
  | add (fields : Fields) (t : Ty)
end

/-- `size` and `alignment` of `Type`. -/
structure Lay where
  size : Int
  alignment : Int
  deriving DecidableEq, Repr

/-- `typeSizeRecompute`, `typeAlignmentRecompute` (umka_types.c:190-287): `sizeof(DynArray)` is 24,
`sizeof(Map)` is 16. -/
def primLayout : Prim → Lay
  | .bytes1 => ⟨1, 1⟩
  | .bytes2 => ⟨2, 2⟩
  | .bytes4 => ⟨4, 4⟩
  | .bytes8 => ⟨8, 8⟩
  | .dynArray => ⟨24, 8⟩
  | .map => ⟨16, 8⟩

/-- `typeSize` (umka_types.c:238-246). -/
def typeSize (l : Lay) : Res Int := if l.size < 0 then .error (.err .illegalType) else .ok l.size

/-- A structure under construction: `field`, `size`, `alignment`. -/
structure Struct where
  fields : List Part
  size : Int
  alignment : Int
  deriving DecidableEq, Repr

/-- `typeAdd` for a structure (umka_types.c:114-133). -/
def emptyStruct : Struct := ⟨[], 0, 1⟩

/-- `typeAddField` (umka_types.c:674-732), without names. -/
def addField (s : Struct) (f : Lay) : Res Struct := do
  let minNext ← (match s.fields.getLast? with
    | none => .ok 0
    | some last => checked (last.offset + last.size) : Res Int)
  let size ← typeSize f
  let room ← checked (intMax - minNext)
  if size > room then .error (.err .structTooLarge)
  else do
    let offset := toInt (align minNext f.alignment)
    let alignment := if s.alignment < f.alignment then f.alignment else s.alignment
    let stop ← checked (offset + f.size)
    return ⟨s.fields ++ [⟨offset, f.size, f.alignment⟩], toInt (align stop alignment), alignment⟩

/-- `typeAssertResizeArray`, `typeResizeArray` (umka_types.c:637-646, umka_types.h:432-440). -/
def resizeArray (base : Lay) (numItems : Nat) : Res Lay := do
  if (numItems : Int) > intMax then .error (.err .arrayTooLarge)
  else do
    let size ← typeSize base
    if 0 < numItems ∧ size > Int.tdiv intMax numItems then .error (.err .arrayTooLarge)
    else do
      let total ← checked (numItems * base.size)
      return ⟨total, base.alignment⟩

mutual
/-- Size and alignment of a type. -/
def layout : Ty → Res Lay
  | .prim p => .ok (primLayout p)
  | .array n base => do resizeArray (← layout base) n
  | .struct fs => do
    let s ← structLayout fs
    return ⟨s.size, s.alignment⟩
/-- The structure with these fields. -/
def structLayout : Fields → Res Struct
  | .none => .ok emptyStruct
  | .add fs t => do
    let s ← structLayout fs
    addField s (← layout t)
end

/-! ## Parameters -/

/-- `typeParamSizeUpTo` (umka_types.c:823-830) for `index = n - 1`. -/
def paramSizeUpTo (sizes : List Nat) (n : Nat) : Int :=
  (sizes.take n).foldl (fun (size : Int) (z : Nat) => toInt (size + align (z : Int) 8)) 0

/-- `typeParamSizeTotal` (umka_types.c:833-836). -/
def paramSizeTotal (sizes : List Nat) : Int := paramSizeUpTo sizes sizes.length

/-- `typeParamOffset` (umka_types.c:839-844). -/
def paramOffset (sizes : List Nat) (i : Nat) : Res Int := do
  let d ← checked (paramSizeTotal sizes - paramSizeUpTo sizes (i + 1))
  return toInt (d + 16)

/-- `ParamLayout` (umka_common.h:175-181). -/
structure ParamLayout where
  numParams : Nat
  numResultParams : Nat
  numParamSlots : Int
  firstSlotIndex : List Int
  deriving DecidableEq, Repr

/-- Conversion to `size_t`. -/
def toSize (x : Int) : Int := x % 18446744073709551616

/-- The parameter part of `typeMakeStackFrameLayout` (umka_types.c:850-874). -/
def makeParamLayout (sizes : List Nat) (structuredResult : Bool) : Res ParamLayout := do
  let first ← (List.range sizes.length).mapM fun i => do
    let o ← paramOffset sizes i
    return toSize o / 8 - 2
  return ⟨sizes.length, if structuredResult then 1 else 0, toSize (paramSizeTotal sizes) / 8, first⟩

/-- `umkaGetParam` (umka_api.c:286-292): the slot number relative to `params`; `none` is `NULL`. -/
def getParam (l : ParamLayout) (index : Int) : Res (Option Int) :=
  if index < 0 ∨ index ≥ (l.numParams : Int) - l.numResultParams - 1 then .ok none
  else
    match l.firstSlotIndex[index.toNat + 1]? with
    | some i => .ok (some i)
    | none => .error .ub

/-! ## Local variables -/

/-- An item of `Blocks` (umka_common.h:136-152): `fn` is the function whose body it is. -/
structure Block where
  fn : Option Nat
  localVarSize : Int
  deriving DecidableEq, Repr

/-- A local variable, with the function in whose frame it lies. -/
structure Var where
  fn : Nat
  part : Part
  deriving DecidableEq, Repr

/-- The compiler: blocks (innermost first, the last one is the global block), a counter for
functions, the variables allocated so far, and the frames of the functions that are complete. -/
structure State where
  blocks : List Block
  numFns : Nat
  vars : List Var
  /-- `localVarSlots` of each complete function -/
  frames : List (Nat × Int)
  deriving DecidableEq, Repr

def init : State := ⟨[⟨none, 0⟩], 0, [], []⟩

inductive Op where
  /-- `blocksEnter` -/
  | enter
  /-- `blocksEnterFn` -/
  | enterFn
  /-- `blocksLeave`, for a function after `typeMakeStackFrameLayout` -/
  | leave
  /-- `identAllocStack` -/
  | alloc (l : Lay)
  deriving DecidableEq, Repr

/-- The search and update in `identAllocStack` (umka_ident.c:313-333); the global block is not
searched.  The answer has the function, its new `localVarSize` and the offset. -/
def allocStack (l : Lay) : List Block → Res (List Block × Nat × Int)
  | [] => .error (.err .noFrame)
  | [_] => .error (.err .noFrame)
  | b :: bs =>
    match b.fn with
    | some fn => do
      let size ← typeSize l
      let room ← checked (intMax - b.localVarSize)
      if size > room then .error (.err .stackOverflow)
      else do
        let newSize := toInt (align (b.localVarSize + size) l.alignment)
        return ({ b with localVarSize := newSize } :: bs, fn, toInt (-16 - newSize))
    | none => do
      let (bs, fn, offset) ← allocStack l bs
      return (b :: bs, fn, offset)

/-- `blocksEnterFn`, `blocksEnter`, `blocksLeave` (umka_common.c:528-555), `parseFnBlock`
(umka_stmt.c:1367-1368) and `identAllocStack`.  `MAX_BLOCK_NESTING` is not modelled. -/
def step (s : State) : Op → Res State
  | .enter => .ok { s with blocks := ⟨none, 0⟩ :: s.blocks }
  | .enterFn => .ok { s with blocks := ⟨some s.numFns, 0⟩ :: s.blocks, numFns := s.numFns + 1 }
  | .leave =>
    match s.blocks with
    | b :: b' :: bs =>
      match b.fn with
      | some fn => .ok { s with
          blocks := b' :: bs, frames := (fn, toSize (align b.localVarSize 8) / 8) :: s.frames }
      | none => .ok { s with blocks := b' :: bs }
    | _ => .error (.err .noFrame)
  | .alloc l => do
    let (bs, fn, offset) ← allocStack l s.blocks
    return { s with blocks := bs, vars := ⟨fn, offset, l.size, l.alignment⟩ :: s.vars }

def run (s : State) : List Op → Res State
  | [] => .ok s
  | op :: ops => do run (← step s op) ops

end Umka.Layout
