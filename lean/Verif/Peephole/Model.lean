import Verif.Arith.Model
/-!
# The peephole optimizer: model of the code

The generator functions of `umka_gen.c` look at the last one or two instructions before they append
a new one, and may combine them.  The model has the instructions of straight-line code with their
effect on the machine, and the optimizer, rule by rule.

Simplified: the stack of operands is a list without a limit (its overflow check is the subject of
`Verif/Frame`), separate from the memory that holds variables; an operand field of an instruction is
an unbounded integer; floating-point operations, the heap and the effect of instructions that no rule
mentions are parameters; jumps refer to labels (that the stubs are filled in with the right addresses is
the subject of `Verif/Control`).  Pointer arithmetic that wraps around is undefined behaviour.
-/

namespace Umka.Peephole
open Umka.Arith (Slot Mem readBytes writeBytes readSigned readUnsigned BinOp UnOp RealOps Num Builtin)

/-- Run-time errors. -/
inductive Err
  | nullPointer | nullArray | nullStruct | nullDynArray | nullMap
  | indexRange | badStr | illegalType | illegalInstr | overflow
  | arith (e : Arith.Err) | other (n : Nat)
  deriving DecidableEq, Repr

/-- Outcome of an instruction or of the generator: success, an error reported to the user, or undefined
behaviour of the C program. -/
inductive R (α : Type)
  | ok (a : α) | err (e : Err) | ub
  deriving DecidableEq, Repr

def R.bind {α β : Type} : R α → (α → R β) → R β
  | .ok a, f => f a
  | .err e, _ => .err e
  | .ub, _ => .ub

/-- Results of the arithmetic model. -/
def lift {α : Type} : Arith.Res α → R α
  | .ok a => .ok a
  | .err e => .err (.arith e)
  | .ub => .ub

/-- `TypeKind`, `umka_types.h:16-50`. -/
inductive Kind
  | ord (k : Arith.Kind) | real32 | real | ptr | weakptr | str | fiber | fn
  /-- arrays, dynamic arrays, maps, structures, interfaces, closures -/
  | structured
  | none
  deriving DecidableEq, Repr

mutual
/-- Types as far as reference counting looks at them (`umka_vm.c:1218-1400`). -/
inductive Ty
  | ptr | str | fiber | dynarray | map | interface
  /-- a type without pointers -/
  | plain
  /-- number of items, size of an item, type of an item -/
  | array (n size : Nat) (t : Ty)
  /-- structures and closures -/
  | struct (fs : Fields)
inductive Fields
  | nil
  | cons (offset : Nat) (t : Ty) (fs : Fields)
end

/-- `typeStructured`, `umka_types.h`. -/
def Ty.structured : Ty → Bool
  | .ptr | .str | .fiber | .plain => false
  | _ => true

mutual
/-- `isGarbageCollected` -/
def Ty.collected : Ty → Bool
  | .plain => false
  | .array _ _ t => t.collected
  | .struct fs => fs.collected
  | _ => true
def Fields.collected : Fields → Bool
  | .nil => false
  | .cons _ t fs => t.collected || fs.collected
end

/-- `RegisterIndex`, `umka_vm.h:10-18`. -/
inductive Reg
  | result | self | heapCopy | switchExpr | exprList
  deriving DecidableEq, Repr

/-- `TOK_PLUSPLUS` or `TOK_MINUSMINUS`. -/
inductive Tok
  | inc | dec
  deriving DecidableEq, Repr

inductive BuiltinFn
  | num (f : Builtin)
  | makeRealLeft
  | other (n : Nat)
  deriving DecidableEq, Repr

/-- Instructions (`umka_vm.h:31-77`) of straight-line code.  `push` has the kind that the optimizer
inspects; `other` are the instructions without rules, calls included. -/
inductive Instr
  | push (k : Kind) (v : Slot)
  | pushGlobal (k : Kind) (p : Slot)
  | pushLocalPtr (off : Int)
  | pushLocalPtrZero (off : Int) (size : Nat)
  | pushLocal (k : Kind) (off : Int)
  | pushReg (r : Reg)
  | pushZero (n : Nat)
  | pop (n : Nat)
  | popReg (r : Reg)
  | dup
  | swap
  | zero (size : Nat)
  | deref (k : Kind)
  | assign (k : Kind) (size : Nat)
  | swapAssign (k : Kind) (size : Nat)
  | refCnt (tok : Tok) (t : Ty)
  | unary (op : UnOp) (k : Kind)
  | binary (op : BinOp) (k : Kind)
  | getArrayPtr (itemSize : Nat) (len : Int)
  | getArray (itemSize : Nat) (len : Int) (k : Kind)
  | getDynArrayPtr
  | getDynArray (k : Kind)
  | getMapPtr (t : Nat)
  | getMap (t : Nat) (k : Kind)
  | getFieldPtr (off : Int)
  | getField (off : Int) (k : Kind)
  | callBuiltin (f : BuiltinFn) (k : Kind)
  | other (n : Nat)

/-! ## The machine -/

/-- Everything but `REG_SELF`: the operand stack (top first), memory, the frame base, the other
registers, and the rest (heap, fibers, files). -/
structure Core (ω : Type) where
  stack : List Slot
  mem : Mem
  base : Slot
  regs : Reg → Slot
  world : ω

structure St (ω : Type) where
  core : Core ω
  self : Slot

/-- Floating-point operations on `double` values given by their bits, string checks, and the parts of the
machine that are opaque here. -/
structure Env (ω : Type) where
  real : RealOps Slot
  neg : Slot → Slot
  add : Slot → Slot → Slot
  sub : Slot → Slot → Slot
  mul : Slot → Slot → Slot
  div : Slot → Slot → Slot
  fmod : Slot → Slot → Slot
  eq : Slot → Slot → Bool
  lt : Slot → Slot → Bool
  le : Slot → Slot → Bool
  /-- `float` to `double` and back -/
  widen : Nat → Slot
  narrow : Slot → Nat
  /-- out of the range of `float`, of `double` -/
  over32 : Slot → Bool
  over : Slot → Bool
  /-- `doCheckStr`, `umka_vm.c:942-952` -/
  strOk : ω → Mem → Slot → Bool
  strOk_null : ∀ w m, strOk w m 0 = true
  /-- length of a string, `getStrDims(str)->len` -/
  strLen : ω → Mem → Slot → Int
  emptyStr : Slot
  /-- `pageFind(pages, ptr) != NULL` -/
  inHeap : ω → Slot → Bool
  inHeap_null : ∀ w, inHeap w 0 = false
  /-- counting one reference from a pointer, string, fiber or dynamic array into the heap -/
  count : Tok → Ty → Slot → ω → Mem → R (ω × Mem)
  /-- the concrete value of an interface -/
  countSelf : Tok → Slot → ω → Mem → R (ω × Mem)
  /-- address of an item of a dynamic array, `umka_vm.c:3644-3661` -/
  dynArrayPtr : ω → Mem → (array index : Slot) → R Slot
  /-- address of an item of a map, created if necessary, `umka_vm.c:3667-3703` -/
  mapPtr : Nat → (map key : Slot) → ω → Mem → R (ω × Mem × Slot)
  /-- all other unary and binary operators (strings, pointers, structures) -/
  unaryOther : UnOp → Kind → Slot → R Slot
  binaryOther : BinOp → Kind → Slot → Slot → ω → Mem → R (ω × Mem × Slot)
  /-- all other instructions and built-in functions -/
  other : Nat → Core ω → R (Core ω)
  builtinOther : Nat → Core ω → R (Core ω)

variable {ω : Type}

/-- `ptr + offset` in C. -/
def addPtr (p : Slot) (off : Int) : R Slot :=
  if 0 < p.toNat + off ∧ p.toNat + off < 2 ^ 64 then .ok (BitVec.ofInt 64 (p.toNat + off)) else .ub

/-- `memset(ptr, 0, size)` -/
def zeroBytes (m : Mem) (p : Slot) (size : Nat) : R Mem :=
  if p = 0 ∨ 2 ^ 64 < p.toNat + size then .ub
  else .ok fun a => if p.toNat ≤ a ∧ a < p.toNat + size then 0 else m a

/-- `memcpy(dest, src, size)` -/
def copyBytes (m : Mem) (dest src : Slot) (size : Nat) : Mem :=
  fun a => if dest.toNat ≤ a ∧ a < dest.toNat + size then m (src.toNat + (a - dest.toNat)) else m a

/-- A 64-bit load. -/
def load64 (m : Mem) (p : Slot) : Slot := BitVec.ofNat 64 (readBytes m p.toNat 8)

/-- `doDerefImpl`, `umka_vm.c:977-1015`. -/
def derefImpl (e : Env ω) (k : Kind) (w : ω) (m : Mem) (p : Slot) : R Slot :=
  if p = 0 then .err .nullPointer else
  match k with
  | .ord k => lift (Arith.doDeref k m p.toNat)
  | .real32 => .ok (e.widen (readBytes m p.toNat 4))
  | .real | .ptr | .weakptr | .fiber | .fn => .ok (load64 m p)
  | .str => if e.strOk w m (load64 m p) then .ok (load64 m p) else .err .badStr
  | .structured => .ok p
  | .none => .err .illegalType

/-- `doAssignImpl`, `umka_vm.c:1018-1066`. -/
def assignImpl (e : Env ω) (k : Kind) (size : Nat) (w : ω) (m : Mem) (lhs rhs : Slot) : R Mem :=
  if lhs = 0 then .err .nullPointer else
  match k with
  | .ord k => lift (Arith.doAssign k m lhs.toNat rhs)
  | .real32 => if e.over32 rhs then .err .overflow else .ok (writeBytes m lhs.toNat 4 (e.narrow rhs))
  | .real => if e.over rhs then .err .overflow else .ok (writeBytes m lhs.toNat 8 rhs.toNat)
  | .ptr | .weakptr | .fiber | .fn => .ok (writeBytes m lhs.toNat 8 rhs.toNat)
  | .str => if e.strOk w m rhs then .ok (writeBytes m lhs.toNat 8 rhs.toNat) else .err .badStr
  | .structured => if rhs = 0 then .err .nullPointer else .ok (copyBytes m lhs rhs size)
  | .none => .err .overflow

/-- Counting from one pointer: `umka_vm.c:1243-1295` and `1300-1318`: nothing for pointers outside the
heap. -/
def countPtr (e : Env ω) (tok : Tok) (t : Ty) (p : Slot) (w : ω) (m : Mem) : R (ω × Mem) :=
  if e.inHeap w p then e.count tok t p w m else .ok (w, m)

mutual
/-- The candidates found inside a value of type `t` at address `p`:
`doAddArrayItemsRefCntCandidates`, `doAddStructFieldsRefCntCandidates` (`umka_vm.c:1183-1215`), and the
cases of `doRefCntImpl` (`umka_vm.c:1218-1400`) that they lead to.  The candidates are on a stack, so
the last item and the last field come first. -/
def refCntAt (e : Env ω) (tok : Tok) : Ty → Slot → ω → Mem → R (ω × Mem)
  | .ptr, p, w, m => countPtr e tok .ptr (load64 m p) w m
  | .str, p, w, m =>
    if e.strOk w m (load64 m p) then countPtr e tok .str (load64 m p) w m else .err .badStr
  | .fiber, p, w, m => countPtr e tok .fiber (load64 m p) w m
  | .dynarray, p, w, m => countPtr e tok .dynarray (load64 m (p + 16)) w m
  | .map, p, w, m => countPtr e tok .map (load64 m (p + 8)) w m
  | .interface, p, w, m => if load64 m p = 0 then .ok (w, m) else e.countSelf tok p w m
  | .plain, _, w, m => .ok (w, m)
  | .array n size t, p, w, m =>
    if t.collected then
      (List.range n).reverse.foldl
        (fun acc i => acc.bind fun (w, m) => refCntAt e tok t (p + BitVec.ofNat 64 (size * i)) w m)
        (.ok (w, m))
    else .ok (w, m)
  | .struct fs, p, w, m => refCntFields e tok fs p w m
def refCntFields (e : Env ω) (tok : Tok) : Fields → Slot → ω → Mem → R (ω × Mem)
  | .nil, _, w, m => .ok (w, m)
  | .cons off t fs, p, w, m =>
    (refCntFields e tok fs p w m).bind fun (w, m) =>
      if t.collected then refCntAt e tok t (p + BitVec.ofNat 64 off) w m else .ok (w, m)
end

/-- `doRefCntImpl`, `umka_vm.c:1218-1400`.  `p` is the pointer itself for pointers, strings and fibers,
and the address of the value for all other types. -/
def refCntImpl (e : Env ω) (tok : Tok) (t : Ty) (p : Slot) (w : ω) (m : Mem) : R (ω × Mem) :=
  match t with
  | .ptr => countPtr e tok .ptr p w m
  | .str => if e.strOk w m p then countPtr e tok .str p w m else .err .badStr
  | .fiber => countPtr e tok .fiber p w m
  | t => refCntAt e tok t p w m

/-- `typeReal` -/
def Kind.isReal : Kind → Bool
  | .real32 | .real => true
  | _ => false

/-- `typeOrdinal(type) || typeReal(type) || type->kind == TYPE_BOOL`, `umka_gen.c:377`. -/
def Kind.foldable : Kind → Bool
  | .ord _ | .real32 | .real => true
  | _ => false

/-- `doUnary`, `umka_vm.c:3320-3388`, without `++` and `--` (they are `other` instructions). -/
def doUnary (e : Env ω) (op : UnOp) (k : Kind) (v : Slot) : R Slot :=
  if k.isReal then
    match op with
    | .plus => .ok v
    | .minus => .ok (e.neg v)
    | _ => .err .illegalInstr
  else lift (Arith.doUnary op v)

/-- `constUnary`, `umka_const.c:217-241`. -/
def constUnary (e : Env ω) (op : UnOp) (k : Kind) (v : Slot) : R Slot :=
  if k.isReal then
    match op with
    | .plus => .ok v
    | .minus => .ok (e.neg v)
    | _ => .err .illegalInstr
  else lift (Arith.constUnary op v)

/-- `doBinary`, `umka_vm.c:3482-3508`: branch for reals. -/
def doBinaryReal (e : Env ω) (op : BinOp) (l r : Slot) : R Slot :=
  match op with
  | .plus => .ok (e.add l r)
  | .minus => .ok (e.sub l r)
  | .mul => .ok (e.mul l r)
  | .div => if e.real.isZero r then .err (.arith .divisionByZero) else .ok (e.div l r)
  | .mod => if e.real.isZero r then .err (.arith .divisionByZero) else .ok (e.fmod l r)
  | .eqeq => .ok (Arith.ofBool (e.eq l r))
  | .noteq => .ok (Arith.ofBool (!e.eq l r))
  | .greater => .ok (Arith.ofBool (e.lt r l))
  | .less => .ok (Arith.ofBool (e.lt l r))
  | .greatereq => .ok (Arith.ofBool (e.le r l))
  | .lesseq => .ok (Arith.ofBool (e.le l r))
  | _ => .err .illegalInstr

/-- `constBinary`, `umka_const.c:301-331`: branch for reals. -/
def constBinaryReal (e : Env ω) (op : BinOp) (l r : Slot) : R Slot :=
  match op with
  | .plus => .ok (e.add l r)
  | .minus => .ok (e.sub l r)
  | .mul => .ok (e.mul l r)
  | .div => if e.real.isZero r then .err (.arith .divisionByZero) else .ok (e.div l r)
  | .mod => if e.real.isZero r then .err (.arith .divisionByZero) else .ok (e.fmod l r)
  | .eqeq => .ok (Arith.ofBool (e.eq l r))
  | .noteq => .ok (Arith.ofBool (!e.eq l r))
  | .greater => .ok (Arith.ofBool (e.lt r l))
  | .less => .ok (Arith.ofBool (e.lt l r))
  | .greatereq => .ok (Arith.ofBool (e.le r l))
  | .lesseq => .ok (Arith.ofBool (e.le l r))
  | _ => .err .illegalInstr

/-- `doBinary`, `umka_vm.c:3391-3606`. -/
def doBinary (e : Env ω) (op : BinOp) (k : Kind) (l r : Slot) (w : ω) (m : Mem) : R (ω × Mem × Slot) :=
  match k with
  | .ord k => (lift (Arith.doBinary op k l r)).bind fun v => .ok (w, m, v)
  | .real | .real32 => (doBinaryReal e op l r).bind fun v => .ok (w, m, v)
  | k => e.binaryOther op k l r w m

/-- `constBinary`, `umka_const.c:244-421`, for the types for which the optimizer calls it. -/
def constBinary (e : Env ω) (op : BinOp) (k : Kind) (l r : Slot) : R Slot :=
  match k with
  | .ord k => lift (Arith.constBinary op k l r)
  | .real | .real32 => constBinaryReal e op l r
  | _ => .err .illegalInstr

/-- The kind that the arithmetic model expects; only `uint` matters. -/
def Kind.arith : Kind → Arith.Kind
  | .ord k => k
  | _ => .int

/-- The argument of a numeric built-in function: an integer for `MAKEREAL` and `ABS`. -/
def numArg (f : Builtin) (v : Slot) : Num Slot :=
  match f with
  | .makereal | .abs => .i v
  | _ => .r v

def numRes : Num Slot → Slot
  | .i v => v
  | .r v => v

/-- `doCallBuiltin`, `umka_vm.c:3880-3982`: numeric functions. -/
def callNum (e : Env ω) (f : Builtin) (k : Kind) : List Slot → R (List Slot)
  | [] => .ub
  | x :: st =>
    if f = .atan2 then
      match st with
      | [] => .ub
      | y :: st => (lift (Arith.callBuiltin e.real f k.arith (numArg f y) x)).bind fun v => .ok (numRes v :: st)
    else (lift (Arith.callBuiltin e.real f k.arith (numArg f x) 0)).bind fun v => .ok (numRes v :: st)

/-- `BUILTIN_MAKEREALLEFT`, `umka_vm.c:3897-3906`: the value below the top. -/
def callMakeRealLeft (e : Env ω) (k : Kind) : List Slot → R (List Slot)
  | x :: y :: st =>
    (lift (Arith.callBuiltin e.real .makereal k.arith (.i y) 0)).bind fun v => .ok (x :: numRes v :: st)
  | _ => .ub

/-- `doGetArrayPtr`, `umka_vm.c:3611-3640`, up to the dereferencing. -/
def arrayPtr (e : Env ω) (itemSize : Nat) (len : Int) (w : ω) (m : Mem) (data index : Slot) : R Slot :=
  if 0 ≤ len then
    if data = 0 then .err .nullArray
    else if index.toInt < 0 ∨ index.toInt > len - 1 then .err .indexRange
    else addPtr data (itemSize * index.toInt)
  else
    let data := if data = 0 then e.emptyStr else data
    if e.strOk w m data then
      if index.toInt < 0 ∨ index.toInt > e.strLen w m data - 1 then .err .indexRange
      else addPtr data (itemSize * index.toInt)
    else .err .badStr

/-- `doGetFieldPtr`, `umka_vm.c:3708-3721`, up to the dereferencing. -/
def fieldPtr (off : Int) (p : Slot) : R Slot :=
  if p = 0 then .err .nullStruct else addPtr p off

def Core.getReg (s : St ω) (r : Reg) : Slot := if r = .self then s.self else s.core.regs r

def setReg (s : St ω) (r : Reg) (v : Slot) : St ω :=
  if r = .self then { s with self := v }
  else { s with core := { s.core with regs := fun r' => if r' = r then v else s.core.regs r' } }

/-- A new operand stack. -/
def St.withStack (s : St ω) (st : List Slot) : St ω := { s with core := { s.core with stack := st } }

/-- A new operand stack, heap and memory. -/
def St.withAll (s : St ω) (w : ω) (m : Mem) (st : List Slot) : St ω :=
  { s with core := { s.core with stack := st, mem := m, world := w } }

/-- Effect of one instruction: the functions `doPush` ... `doCallBuiltin`, `umka_vm.c:3090-3982`.
Taking a value from the empty stack is undefined. -/
def exec (e : Env ω) (i : Instr) (s : St ω) : R (St ω) :=
  let c := s.core
  match i with
  | .push _ v => .ok (s.withStack (v :: c.stack))                                       -- 3090
  | .pushGlobal k p =>                                                                  -- 3097
    (derefImpl e k c.world c.mem p).bind fun v => .ok (s.withStack (v :: c.stack))
  | .pushLocalPtr off =>                                                                -- 3119
    (addPtr c.base off).bind fun p => .ok (s.withStack (p :: c.stack))
  | .pushLocalPtrZero off size =>                                                       -- 3126
    (addPtr c.base off).bind fun p =>
      (zeroBytes c.mem p size).bind fun m => .ok (s.withAll c.world m (p :: c.stack))
  | .pushLocal k off =>                                                                 -- 3135
    (addPtr c.base off).bind fun p =>
      (derefImpl e k c.world c.mem p).bind fun v => .ok (s.withStack (v :: c.stack))
  | .pushReg r => .ok (s.withStack (Core.getReg s r :: c.stack))                        -- 3143
  | .pushZero n => .ok (s.withStack (List.replicate n 0 ++ c.stack))                    -- 3105
  | .pop n => if n ≤ c.stack.length then .ok (s.withStack (c.stack.drop n)) else .ub    -- 3161
  | .popReg r =>                                                                        -- 3168
    match c.stack with
    | v :: st => .ok ((setReg s r v).withStack st)
    | [] => .ub
  | .dup =>                                                                             -- 3175
    match c.stack with
    | v :: st => .ok (s.withStack (v :: v :: st))
    | [] => .ub
  | .swap =>                                                                            -- 3183
    match c.stack with
    | v :: v' :: st => .ok (s.withStack (v' :: v :: st))
    | _ => .ub
  | .zero size =>                                                                       -- 3190
    match c.stack with
    | p :: st => (zeroBytes c.mem p size).bind fun m => .ok (s.withAll c.world m st)
    | [] => .ub
  | .deref k =>                                                                         -- 3199
    match c.stack with
    | p :: st => (derefImpl e k c.world c.mem p).bind fun v => .ok (s.withStack (v :: st))
    | [] => .ub
  | .assign k size =>                                                                   -- 3206
    match c.stack with
    | rhs :: lhs :: st =>
      (assignImpl e k size c.world c.mem lhs rhs).bind fun m => .ok (s.withAll c.world m st)
    | _ => .ub
  | .swapAssign k size =>
    match c.stack with
    | lhs :: rhs :: st =>
      (assignImpl e k size c.world c.mem lhs rhs).bind fun m => .ok (s.withAll c.world m st)
    | _ => .ub
  | .refCnt tok t =>                                                                    -- 3246
    match c.stack with
    | p :: st => (refCntImpl e tok t p c.world c.mem).bind fun (w, m) => .ok (s.withAll w m (p :: st))
    | [] => .ub
  | .unary op k =>                                                                      -- 3320
    match c.stack with
    | v :: st => (doUnary e op k v).bind fun v => .ok (s.withStack (v :: st))
    | [] => .ub
  | .binary op k =>                                                                     -- 3391
    match c.stack with
    | r :: l :: st =>
      (doBinary e op k l r c.world c.mem).bind fun (w, m, v) => .ok (s.withAll w m (v :: st))
    | _ => .ub
  | .getArrayPtr itemSize len =>                                                        -- 3611
    match c.stack with
    | index :: data :: st =>
      (arrayPtr e itemSize len c.world c.mem data index).bind fun p => .ok (s.withStack (p :: st))
    | _ => .ub
  | .getArray itemSize len k =>
    match c.stack with
    | index :: data :: st =>
      (arrayPtr e itemSize len c.world c.mem data index).bind fun p =>
        (derefImpl e k c.world c.mem p).bind fun v => .ok (s.withStack (v :: st))
    | _ => .ub
  | .getDynArrayPtr =>                                                                  -- 3644
    match c.stack with
    | index :: arr :: st =>
      (e.dynArrayPtr c.world c.mem arr index).bind fun p => .ok (s.withStack (p :: st))
    | _ => .ub
  | .getDynArray k =>
    match c.stack with
    | index :: arr :: st =>
      (e.dynArrayPtr c.world c.mem arr index).bind fun p =>
        (derefImpl e k c.world c.mem p).bind fun v => .ok (s.withStack (v :: st))
    | _ => .ub
  | .getMapPtr t =>                                                                     -- 3667
    match c.stack with
    | key :: map :: st =>
      (e.mapPtr t map key c.world c.mem).bind fun (w, m, p) => .ok (s.withAll w m (p :: st))
    | _ => .ub
  | .getMap t k =>
    match c.stack with
    | key :: map :: st =>
      (e.mapPtr t map key c.world c.mem).bind fun (w, m, p) =>
        (derefImpl e k w m p).bind fun v => .ok (s.withAll w m (v :: st))
    | _ => .ub
  | .getFieldPtr off =>                                                                 -- 3708
    match c.stack with
    | p :: st => (fieldPtr off p).bind fun p => .ok (s.withStack (p :: st))
    | [] => .ub
  | .getField off k =>
    match c.stack with
    | p :: st =>
      (fieldPtr off p).bind fun p =>
        (derefImpl e k c.world c.mem p).bind fun v => .ok (s.withStack (v :: st))
    | [] => .ub
  | .callBuiltin f k =>                                                                 -- 3880
    match f with
    | .num f => (callNum e f k c.stack).bind fun st => .ok (s.withStack st)
    | .makeRealLeft => (callMakeRealLeft e k c.stack).bind fun st => .ok (s.withStack st)
    | .other n => (e.builtinOther n c).bind fun c => .ok { s with core := c }
  | .other n => (e.other n c).bind fun c => .ok { s with core := c }

/-! ## The generator -/

/-- Code: straight-line instructions, and jumps to a label (`OP_GOTO`, or the stub for it). -/
inductive CItem
  | ins (i : Instr)
  | jump (c : Option Bool) (l : Nat)

/-- `CodeGen`, `umka_gen.h:31-43`: the code, last instruction first, `lastJump`, and the positions of
the labels. -/
structure Gen where
  rcode : List CItem
  lastJump : Nat
  labels : List (Nat × Nat)

/-- `gen->ip` -/
def Gen.ip (g : Gen) : Nat := g.rcode.length

/-- `genAddInstr`, `umka_gen.c:68-78`. -/
def add (g : Gen) (i : Instr) : Gen := { g with rcode := .ins i :: g.rcode }

/-- `genRemoveInstr`, `umka_gen.c:81-85`. -/
def remove (g : Gen) : Gen := { g with rcode := g.rcode.tail }

/-- `getPrevInstr(gen, 1)`, `umka_gen.c:90-97`: `NULL` for an instruction before `lastJump`.  A jump or
its stub is not `NULL` in C, but matches no rule either. -/
def prev (g : Gen) : Option Instr :=
  if g.ip < g.lastJump + 1 then none
  else match g.rcode with
    | .ins i :: _ => some i
    | _ => none

/-- `getPrevInstr(gen, 2)`. -/
def prev2 (g : Gen) : Option Instr :=
  if g.ip < g.lastJump + 2 then none
  else match g.rcode with
    | _ :: .ins i :: _ => some i
    | _ => none

/-- Replacing the last instruction. -/
def replace (g : Gen) (i : Instr) : Gen := add (remove g) i

/-- `genPushLocalPtr`, `optimizePushLocalPtr`, `umka_gen.c:100-122`, `548-555`. -/
def genPushLocalPtr (g : Gen) (off : Int) : Gen :=
  match prev g, prev2 g with
  | some (.zero size), some (.pushLocalPtr off') =>
    if off = off' then add (remove (remove g)) (.pushLocalPtrZero off size)
    else add g (.pushLocalPtr off)
  | _, _ => add g (.pushLocalPtr off)

/-- `genPushReg`, `optimizePushReg`, `umka_gen.c:125-139`, `575-582`. -/
def genPushReg (g : Gen) (r : Reg) : Gen :=
  match prev g with
  | some (.popReg .self) => if r = .self then remove g else add g (.pushReg r)
  | _ => add g (.pushReg r)

/-- `genPushZero`, `optimizePushZero`, `umka_gen.c:142-155`, `592-599`. -/
def genPushZero (g : Gen) (n : Nat) : Gen :=
  match prev g with
  | some (.pushZero m) => replace g (.pushZero (m + n))
  | _ => add g (.pushZero n)

/-- `genPop`, `optimizePop`, `umka_gen.c:158-171`, `602-609`. -/
def genPop (g : Gen) : Gen :=
  match prev g with
  | some (.pop n) => replace g (.pop (n + 1))
  | _ => add g (.pop 1)

/-- `genPopReg`, `optimizePopReg`, `umka_gen.c:174-186`, `612-619`. -/
def genPopReg (g : Gen) (r : Reg) : Gen :=
  match prev g with
  | some (.pushReg r') => if r' = r then remove g else add g (.popReg r)
  | _ => add g (.popReg r)

/-- `genSwapAssign`, `optimizeSwapAssign`, `umka_gen.c:189-203`, `660-667`. -/
def genSwapAssign (g : Gen) (k : Kind) (size : Nat) : Gen :=
  match prev g with
  | some .swap => replace g (.assign k size)
  | _ => add g (.swapAssign k size)

/-- `genRefCnt`, `optimizeRefCnt`, `umka_gen.c:206-226`, `677-684`. -/
def genRefCnt (g : Gen) (tok : Tok) (t : Ty) : Gen :=
  if t.collected then
    match prev g, t with
    | some (.push .ptr _), .ptr => g
    | some (.push .ptr _), .str => g
    | some (.pushLocalPtrZero _ _), t => if t.structured then g else add g (.refCnt tok t)
    | _, t => add g (.refCnt tok t)
  else g

/-- `genDeref`, `optimizeDeref`, `umka_gen.c:229-293`, `643-650`.  The rule for `GET_FIELD_PTR 0` calls
`genDeref` again; the number of repetitions is bounded by the length of the code. -/
def genDeref (g : Gen) (k : Kind) : Nat → Gen
  | 0 => add g (.deref k)
  | n + 1 =>
    match prev g with
    | some (.push .ptr p) => add (remove g) (.pushGlobal k p)
    | some (.pushLocalPtr off) => add (remove g) (.pushLocal k off)
    | some (.getArrayPtr itemSize len) => replace g (.getArray itemSize len k)
    | some .getDynArrayPtr => replace g (.getDynArray k)
    | some (.getMapPtr t) => replace g (.getMap t k)
    | some (.getFieldPtr off) => if off = 0 then genDeref (remove g) k n else replace g (.getField off k)
    | _ => add g (.deref k)

/-- `genGetFieldPtr`, `optimizeGetFieldPtr`, `umka_gen.c:317-338`, `786-793`. -/
def genGetFieldPtr (g : Gen) (off : Int) : Gen :=
  match prev g with
  | some (.pushLocalPtr m) => replace g (.pushLocalPtr (m + off))
  | some (.getFieldPtr m) => replace g (.getFieldPtr (m + off))
  | _ => add g (.getFieldPtr off)

/-- `int index = prev->operand.intVal`, `umka_gen.c:303`: the low 32 bits. -/
def toInt32 (v : Slot) : Int := (v.truncate 32).toInt

/-- `genGetArrayPtr`, `optimizeGetArrayPtr`, `umka_gen.c:296-314`, `762-769`.  The product is an `int`:
overflow is undefined. -/
def genGetArrayPtr (g : Gen) (itemSize : Nat) (len : Int) : R Gen :=
  match prev g with
  | some (.push (.ord .int) v) =>
    if 0 ≤ len then
      let index := toInt32 v
      if index < 0 ∨ index > len - 1 then .err .indexRange
      else if itemSize * index < 2 ^ 31 then .ok (genGetFieldPtr (remove g) (itemSize * index))
      else .ub
    else .ok (add g (.getArrayPtr itemSize len))
  | _ => .ok (add g (.getArrayPtr itemSize len))

/-- `genUnary`, `optimizeUnary`, `umka_gen.c:341-369`, `742-749`. -/
def genUnary (e : Env ω) (g : Gen) (op : UnOp) (k : Kind) : R Gen :=
  match prev g with
  | some (.push _ v) => (constUnary e op k v).bind fun v => .ok (replace g (.push k v))
  | _ => .ok (add g (.unary op k))

/-- Comparison operators. -/
def isComparison : BinOp → Bool
  | .eqeq | .noteq | .greater | .less | .greatereq | .lesseq => true
  | _ => false

/-- `genBinary`, `optimizeBinary`, `umka_gen.c:372-418`, `752-759`. -/
def genBinary (e : Env ω) (g : Gen) (op : BinOp) (k : Kind) : R Gen :=
  match prev g, prev2 g with
  | some (.push _ r), some (.push _ l) =>
    if k.foldable then
      (constBinary e op k l r).bind fun v =>
        .ok (replace (remove g) (.push (if isComparison op then .ord .bool else k) v))
    else .ok (add g (.binary op k))
  | _, _ => .ok (add g (.binary op k))

/-- The kind of the result of a folded function: `umka_gen.c:436-483`. -/
def numResKind : Builtin → Kind
  | .abs | .round | .trunc | .ceil | .floor => .ord .int
  | _ => .real

/-- `genCallBuiltin`, `optimizeCallBuiltin`, `umka_gen.c:421-505`, `854-871`. -/
def genCallBuiltin (e : Env ω) (g : Gen) (f : BuiltinFn) (k : Kind) : R Gen :=
  match prev g with
  | some (.push k1 x) =>
    match f with
    | .num .atan2 =>
      match prev2 g with
      | some (.push k2 y) =>
        (lift (Arith.constCallBuiltin e.real .atan2 k2.arith (.r y) x)).bind fun v =>
          .ok (replace (remove g) (.push .real (numRes v)))
      | _ => .ok (add g (.callBuiltin f k))
    | .num f =>
      (lift (Arith.constCallBuiltin e.real f k1.arith (numArg f x) 0)).bind fun v =>
        .ok (replace g (.push (numResKind f) (numRes v)))
    | .makeRealLeft =>
      match prev2 g with
      | some (.push k2 y) =>
        (lift (Arith.constCallBuiltin e.real .makereal k2.arith (.i y) 0)).bind fun v =>
          .ok (add (replace (remove g) (.push .real (numRes v))) (.push k1 x))
      | _ => .ok (add g (.callBuiltin f k))
    | .other _ => .ok (add g (.callBuiltin f k))
  | _ => .ok (add g (.callBuiltin f k))

/-- One call of a generator function. -/
def gen (e : Env ω) (g : Gen) (i : Instr) : R Gen :=
  match i with
  | .pushLocalPtr off => .ok (genPushLocalPtr g off)
  | .pushReg r => .ok (genPushReg g r)
  | .pushZero n => .ok (genPushZero g n)
  | .pop n => if n = 1 then .ok (genPop g) else .ok (add g (.pop n))
  | .popReg r => .ok (genPopReg g r)
  | .swapAssign k size => .ok (genSwapAssign g k size)
  | .refCnt tok t => .ok (genRefCnt g tok t)
  | .deref k => .ok (genDeref g k g.ip)
  | .getFieldPtr off => .ok (genGetFieldPtr g off)
  | .getArrayPtr itemSize len => genGetArrayPtr g itemSize len
  | .unary op k => genUnary e g op k
  | .binary op k => genBinary e g op k
  | .callBuiltin f k => genCallBuiltin e g f k
  | i => .ok (add g i)

/-- `genUpdateLastJump(gen, gen->ip)`, `umka_gen.c:33-37`. -/
def updateLastJump (g : Gen) : Gen := { g with lastJump := max g.lastJump g.ip }

/-- What the compiler asks for: an instruction, a label at the current position, or a jump.

A label is the destination of a backward jump (`genSavePos` before a loop, `umka_gen.c:926-930`) or of
earlier forward jumps (the fixups `genGoFromTo(..., gen->ip)`); both update `lastJump` (`upd`), only the
label after the two stubs of a `for` header (`condEpilog + 2`, `umka_gen.c:1060-1065`, `1082`) does not.
A stub for a jump is preceded by `genSavePos` (`upd`) except for `break`, `continue` and `return`
(`genGotosAddStub`, `umka_gen.c:1154-1161`). -/
inductive Item
  | op (i : Instr)
  | label (l : Nat) (upd : Bool)
  | jump (c : Option Bool) (l : Nat) (upd : Bool)

def genItem (e : Env ω) (g : Gen) : Item → R Gen
  | .op i => gen e g i
  | .label l upd =>
    let g := if upd then updateLastJump g else g
    .ok { g with labels := (l, g.ip) :: g.labels }
  | .jump c l upd =>
    let g := if upd then updateLastJump g else g
    .ok { g with rcode := .jump c l :: g.rcode }

/-- The code for a sequence of requests, starting from an empty generator (`genInit`,
`umka_gen.c:40-51`). -/
def genAll (e : Env ω) : List Item → Gen → R Gen
  | [], g => .ok g
  | it :: its, g => (genItem e g it).bind (genAll e its)

def initGen : Gen := ⟨[], 0, []⟩

end Umka.Peephole
