import Verif.Types.Model
import Verif.Arith.Model
/-!
# Interfaces: model

Conversions to, between and from interfaces, calls of methods through an interface, and the selection of a case by a type switch: the code
that the compiler generates (`umka_expr.c:354-501`, `577-676`, `2570-2634`, `1773-1810`; `umka_stmt.c:581-640`) and the instructions it
consists of (`umka_vm.c`).

Memory is a byte array as in `Verif/Arith`; a stack slot is a 64-bit word.  Types are the nodes of the graph of `Verif/Types`, and are checked
with the function `equivalent` of that model.

Simplifications.  The heap is a pointer to the first free byte: what a new block is not (a part of another one, nonzero) is the subject of
`Verif/Heap`.  Reference counts are left out (`Verif/RefCnt`), as is the copy of the result to a temporary variable, whose only purpose is to
count.  Conversions between floating-point formats are parameters.  `doCheckStr`, an internal check of strings, is left out.  The depth of the
recursion of `typeEquivalent` is bounded by a number that `C39_decides` shows to be sufficient.  The constant branches (`any(null)` in a constant)
are left out.
-/

namespace Umka.Iface

open Umka.Types (Graph Kind Node Field equivalent compatible)
open Umka.Arith (Slot Mem writeBytes readBytes readUnsigned)

/-- `float`, `double`: the conversions and the comparisons with `FLT_MAX` and `DBL_MAX` in `typeConvOverflow` (`umka_types.h:397-398`). -/
structure FP where
  narrow : BitVec 64 → BitVec 32
  widen : BitVec 32 → BitVec 64
  overflow32 : BitVec 64 → Bool
  overflow64 : BitVec 64 → Bool

/-- A method declared in the program: `Ident` (`umka_ident.h`) with `sig->isMethod`.  `rcv`: the type of parameter 0. -/
structure Method (n : Nat) where
  name : String
  module : Nat
  exported : Bool
  rcv : Fin n
  type : Fin n
  entry : Nat

/-- What the compiler knows.  `typeModule`: the module of the identifier of a declared type (`typeIdent->module`).  `block`: the module being
compiled (`blocks->module`).  `methods`: the list of identifiers, most recent first, without those that are not methods. -/
structure Env where
  fp : FP
  g : Graph
  size : Fin g.n → Nat
  typeModule : Nat → Nat
  module : Nat
  methods : List (Method g.n)

/-- `typeEquivalent` (`umka_types.c:490-493`). -/
def Env.equiv (e : Env) (l r : Fin e.g.n) : Bool := equivalent e.g (e.g.n * e.g.n + 1) l r == some true

/-- `typeCompatible` (`umka_types.c:506-518`). -/
def Env.compat (e : Env) (l r : Fin e.g.n) : Bool := compatible e.g (e.g.n * e.g.n + 1) l r == some true

def Env.kind (e : Env) (t : Fin e.g.n) : Kind := (e.g.node t).kind

/-- The address of a `Type` structure. -/
def Env.addr (e : Env) (t : Fin e.g.n) : Slot := BitVec.ofNat 64 (t.val + 1)

/-- The `Type` structure at an address; to look at any other address is undefined. -/
def Env.typeAt (e : Env) (w : Slot) : Option (Fin e.g.n) :=
  if h : w.toNat - 1 < e.g.n then some ⟨w.toNat - 1, h⟩ else none

/-- `typeKindOrdinal` (`umka_types.h:260-263`). -/
def ordinal : Kind → Option Arith.Kind
  | .int8 => some .int8
  | .int16 => some .int16
  | .int32 => some .int32
  | .int => some .int
  | .uint8 => some .uint8
  | .uint16 => some .uint16
  | .uint32 => some .uint32
  | .uint => some .uint
  | .bool => some .bool
  | .char => some .char
  | _ => none

/-- `typeStructured` (`umka_types.h:295-300`): represented on the stack by a pointer. -/
def structured : Kind → Bool
  | .array | .dynarray | .map | .struct | .interface | .closure => true
  | _ => false

/-! ## Instructions -/

inductive Err
  | nullPointer | nullStruct | overflow | notDefined | illegalType
  deriving DecidableEq, Repr

/-- The result of execution: a value, a run-time error or undefined behaviour. -/
inductive Res (α : Type)
  | ok (a : α) | err (e : Err) | ub

def Res.bind {α β : Type} : Res α → (α → Res β) → Res β
  | .ok a, f => f a
  | .err e, _ => .err e
  | .ub, _ => .ub

/-- A word (`void *`, `int64_t`) in memory. -/
def word (m : Mem) (a : Nat) : Slot := readUnsigned m a 8

def setWord (m : Mem) (a : Nat) (v : Slot) : Mem := writeBytes m a 8 v.toNat

/-- `doDerefImpl` (`umka_vm.c:977-1015`). -/
def deref (fp : FP) (k : Kind) (m : Mem) (p : Slot) : Res Slot :=
  if p = 0 then .err .nullPointer else
  match ordinal k with
  | some o => match Arith.doDeref o m p.toNat with | .ok v => .ok v | _ => .ub
  | none =>
    if structured k then .ok p else
    match k with
    | .real32 => .ok (fp.widen (BitVec.ofNat 32 (readBytes m p.toNat 4)))
    | .real | .ptr | .weakptr | .str | .fiber | .fn => .ok (word m p.toNat)
    | _ => .err .illegalType

/-- `typeOverflow` (`umka_types.h:379-417`). -/
def overflow (fp : FP) (k : Kind) (v : Slot) : Bool :=
  match ordinal k with
  | some o => Arith.typeOverflow o v
  | none =>
    if structured k then false else
    match k with
    | .real32 => fp.overflow32 v
    | .real => fp.overflow64 v
    | .ptr | .weakptr | .str | .fiber | .fn => false
    | _ => true

/-- `memcpy`. -/
def copyBytes (m : Mem) (dst src size : Nat) : Mem := fun a => if dst ≤ a ∧ a < dst + size then m (src + (a - dst)) else m a

/-- `doAssignImpl` (`umka_vm.c:1018-1066`). -/
def assign (fp : FP) (k : Kind) (size : Nat) (m : Mem) (lhs rhs : Slot) : Res Mem :=
  if lhs = 0 then .err .nullPointer else
  if overflow fp k rhs then .err .overflow else
  match ordinal k with
  | some o => match Arith.doAssign o m lhs.toNat rhs with | .ok m => .ok m | _ => .ub
  | none =>
    if structured k then
      if rhs = 0 then .err .nullPointer else .ok (copyBytes m lhs.toNat rhs.toNat size)
    else
    match k with
    | .real32 => .ok (writeBytes m lhs.toNat 4 (fp.narrow rhs).toNat)
    | .real | .ptr | .weakptr | .str | .fiber | .fn => .ok (setWord m lhs.toNat rhs)
    | _ => .err .illegalType

inductive Instr (n : Nat)
  | dup | pop
  | push (w : Slot)                     -- a constant, the address of a variable or of a type
  | getFieldPtr (off : Nat)
  | deref (k : Kind)
  | swapAssign (k : Kind) (size : Nat)
  | new (size : Nat)
  | popHeapCopy | pushHeapCopy          -- `REG_HEAP_COPY`
  | popSelf | pushSelf                  -- `REG_SELF`
  | assertType (t : Fin n)
  | notEqNull                           -- `genPushGlobalPtr(NULL)`, `genBinary(TOK_NOTEQ)`

/-- The state of the machine.  `free`: the first free byte of the heap. -/
structure M where
  mem : Mem
  stack : List Slot
  heapCopy : Slot
  self : Slot
  free : Nat

/-- The instructions: `doPush`, `doDup`, `doPop`, `doPopReg` (`umka_vm.c:3090-3186`), `doGetFieldPtr` (3708-3722), `doDerefImpl` (977-1015),
`doAssign` with `swap` (3206-3224), `doBuiltinNew` (2212-2219), `doAssertType` (3724-3731), `doBinary` on pointers (3391-3400). -/
def step (e : Env) (m : M) : Instr e.g.n → Res M
  | .dup => match m.stack with | v :: st => .ok { m with stack := v :: v :: st } | _ => .ub
  | .pop => match m.stack with | _ :: st => .ok { m with stack := st } | _ => .ub
  | .push w => .ok { m with stack := w :: m.stack }
  | .getFieldPtr off =>
    match m.stack with
    | p :: st => if p = 0 then .err .nullStruct else .ok { m with stack := (p + BitVec.ofNat 64 off) :: st }
    | _ => .ub
  | .deref k => match m.stack with | p :: st => (deref e.fp k m.mem p).bind fun v => .ok { m with stack := v :: st } | _ => .ub
  | .swapAssign k size =>
    match m.stack with
    | lhs :: rhs :: st => (assign e.fp k size m.mem lhs rhs).bind fun mem => .ok { m with mem := mem, stack := st }
    | _ => .ub
  | .new size =>
    .ok { m with mem := (fun a => if m.free ≤ a ∧ a < m.free + size then 0 else m.mem a), free := m.free + size,
                 stack := BitVec.ofNat 64 m.free :: m.stack }
  | .popHeapCopy => match m.stack with | v :: st => .ok { m with heapCopy := v, stack := st } | _ => .ub
  | .pushHeapCopy => .ok { m with stack := m.heapCopy :: m.stack }
  | .popSelf => match m.stack with | v :: st => .ok { m with self := v, stack := st } | _ => .ub
  | .pushSelf => .ok { m with stack := m.self :: m.stack }
  | .assertType t =>
    match m.stack with
    | p :: st =>
      let self := word m.mem p.toNat
      let selfType := word m.mem (p.toNat + 8)
      if selfType = 0 then .ok { m with stack := 0 :: st }
      else
        match e.typeAt selfType with
        | none => .ub
        | some s => .ok { m with stack := (if e.equiv t s then self else 0) :: st }
    | _ => .ub
  | .notEqNull => match m.stack with | v :: st => .ok { m with stack := (if v = 0 then 0 else 1) :: st } | _ => .ub

def run (e : Env) : List (Instr e.g.n) → M → Res M
  | [], m => .ok m
  | i :: is, m => (step e m i).bind (run e is)

/-! ## The compiler -/

/-- The offset of field `i` of an interface (`typeAddField`, `umka_types.c:697-712`): two pointers and the entry points (`int64_t`) of the
methods, eight bytes each. -/
def fieldOffset (i : Nat) : Nat := 8 * i

/-- `dest.field = top` (`genPushLocalPtr`, `genSwapAssign`).  `area`: the address of the destination. -/
def storeField {n : Nat} (area : Nat) (i : Nat) (k : Kind) : List (Instr n) :=
  [.push (BitVec.ofNat 64 (area + fieldOffset i)), .swapAssign k 0]

/-- `identFind` for a method (`umka_ident.c:69-97`) with `typeCompatibleRcv` (`umka_types.h:355-358`).  `module`: where to look; none for a
type without a name. -/
def findMethod (e : Env) (module : Option Nat) (name : String) (rcv : Fin e.g.n) : Option (Method e.g.n) :=
  e.methods.find? fun m =>
    m.name == name &&
    ((m.module == 0 && some e.module == module) || (some m.module == module && (some e.module == module || m.exported))) &&
    (e.kind m.rcv == .ptr && e.kind rcv == .ptr &&
      (e.g.node (e.g.node m.rcv).base).typeIdent == (e.g.node (e.g.node rcv).base).typeIdent)

/-- The module of a receiver (`umka_expr.c:389`). -/
def rcvModule (e : Env) (base : Fin e.g.n) : Option Nat := (e.g.node base).typeIdent.map e.typeModule

/-- The entry point stored for one method of the interface (`umka_expr.c:382-407`); `none`: the program is rejected. -/
def methodEntry (e : Env) (src : Fin e.g.n) (f : Field e.g.n) : Option Slot :=
  let base := (e.g.node src).base
  if e.kind base = .null then some 0
  else
    match findMethod e (rcvModule e base) f.name src with
    | none => none
    | some m => if e.compat f.type m.type then some (BitVec.ofNat 64 m.entry) else none

/-- The loop over the methods, `umka_expr.c:379-410`. -/
def storeMethods (e : Env) (src : Fin e.g.n) (area : Nat) : Nat → List (Field e.g.n) → Option (List (Instr e.g.n))
  | _, [] => some []
  | i, f :: fs => do
    let w ← methodEntry e src f
    let rest ← storeMethods e src area (i + 1) fs
    return .push w :: storeField area i .fn ++ rest

/-- `doPtrToInterfaceConv` (`umka_expr.c:354-415`).  `area`: the address of the area allocated for the result. -/
def ptrToIface (e : Env) (dest src : Fin e.g.n) (area : Nat) : Option (List (Instr e.g.n)) := do
  let ms ← storeMethods e src area 2 ((e.g.node dest).fields.drop 2)
  return storeField area 0 .ptr ++ (.push (e.addr src) :: storeField area 1 .ptr) ++ ms ++ [.push (BitVec.ofNat 64 area)]

/-- `typeFindField` (`umka_types.c:649-662`). -/
def findField {n : Nat} (name : String) : Nat → List (Field n) → Option (Nat × Field n)
  | _, [] => none
  | i, f :: fs => if f.name = name then some (i, f) else findField name (i + 1) fs

/-- The loop over the methods in `doInterfaceToInterfaceConv` (`umka_expr.c:440-462`). -/
def copyMethods (e : Env) (src : Fin e.g.n) (area : Nat) : Nat → List (Field e.g.n) → Option (List (Instr e.g.n))
  | _, [] => some []
  | i, f :: fs => do
    let q ← findField f.name 0 (e.g.node src).fields
    if e.compat f.type q.2.type then
      let rest ← copyMethods e src area (i + 1) fs
      return .dup :: .getFieldPtr (fieldOffset q.1) :: .deref .fn :: storeField area i .fn ++ rest
    else none

/-- `doInterfaceToInterfaceConv` (`umka_expr.c:418-467`). -/
def ifaceToIface (e : Env) (dest src : Fin e.g.n) (area : Nat) : Option (List (Instr e.g.n)) := do
  let ms ← copyMethods e src area 2 ((e.g.node dest).fields.drop 2)
  return .dup :: .deref .ptr :: storeField area 0 .ptr ++
    (.dup :: .getFieldPtr (fieldOffset 1) :: .deref .ptr :: storeField area 1 .ptr) ++ ms ++ [.pop, .push (BitVec.ofNat 64 area)]

/-- `doEscapeToHeap` (`umka_expr.c:119-129`).  `base`: the type of the value. -/
def escapeToHeap (e : Env) (base : Fin e.g.n) : List (Instr e.g.n) :=
  [.new (e.size base), .dup, .popHeapCopy, .swapAssign (e.kind base) (e.size base), .pushHeapCopy]

/-- `doValueToInterfaceConv` (`umka_expr.c:470-479`).  `srcPtr`: the type added by `typeAddPtrTo`. -/
def valueToIface (e : Env) (dest src srcPtr : Fin e.g.n) (area : Nat) : Option (List (Instr e.g.n)) := do
  let c ← ptrToIface e dest srcPtr area
  return escapeToHeap e src ++ c

/-- Conversion to an interface type: `doImplicitTypeConvEx` (`umka_expr.c:618-640`).  The result is the code and the type of the value it
leaves.  Expression lists are left out. -/
def toIface (e : Env) (dest src srcPtr : Fin e.g.n) (area : Nat) : Option (List (Instr e.g.n) × Fin e.g.n) :=
  if e.kind src = .interface then
    if e.equiv dest src then some ([], src) else (ifaceToIface e dest src area).map (·, dest)
  else if e.kind src = .ptr then
    if e.kind (e.g.node src).base = .ptr then none else (ptrToIface e dest src area).map (·, dest)
  else if e.kind src ≠ .void then (valueToIface e dest src srcPtr area).map (·, dest)
  else none

/-- `dest(i)` for an interface `i`: `doExplicitTypeConv` (`umka_expr.c:717-730`), `doInterfaceToPtrConv`, `doInterfaceToValueConv`
(`umka_expr.c:482-501`).  `destPtr`: the type added by `typeAddPtrTo`. -/
def fromIface (e : Env) (dest destPtr : Fin e.g.n) : List (Instr e.g.n) :=
  if e.kind dest = .ptr then [.assertType dest]
  else [.assertType destPtr, .deref (e.kind dest)]

/-- The method selector of an interface, `i.name` (`parseFieldSelector`, `umka_expr.c:2605-2632`), and the start of the call (`parseCallSelector`,
2643-2648; `parseActualParamsAndCall`, 1796-1806): the receiver goes to a register, the entry point and the receiver are pushed. -/
def selectMethod (e : Env) (t : Fin e.g.n) (name : String) : Option (List (Instr e.g.n)) :=
  match findField name 0 (e.g.node t).fields with
  | none => none
  | some (i, _) => some [.dup, .deref .ptr, .popSelf, .getFieldPtr (fieldOffset i), .deref .fn, .pushSelf]

/-- `doCallIndirect` (`umka_vm.c:3845-3857`): the entry point called, with the receiver; `args`: the slots of the other parameters. -/
def callIndirect (args : List Slot) (m : M) : Res (Slot × Slot × List Slot) :=
  match m.stack with
  | self :: entry :: _ => if entry = 0 then .err .notDefined else .ok (entry, self, args)
  | _ => .ub

/-- The check before a case of a type switch (`parseTypeCase`, `umka_stmt.c:581-633`), and what is done for its value: the value is on the stack
when the case is entered.  `t`: the type of the case, `tPtr`: the pointer type added for it. -/
def caseCheck (e : Env) (t tPtr : Fin e.g.n) : List (Instr e.g.n) :=
  [.dup, .assertType (if e.kind t = .ptr then t else tPtr), .dup, .notEqNull]

def caseBind (e : Env) (t : Fin e.g.n) : List (Instr e.g.n) := if e.kind t = .ptr then [] else [.deref (e.kind t)]

/-- A type switch: the number of the case that is entered and the state then, or `none` with the state at the start of `default`
(`parseTypeSwitchStmt`, `umka_stmt.c:710-766`). -/
def typeSwitch (e : Env) : Nat → List (Fin e.g.n × Fin e.g.n) → M → Res (Option Nat × M)
  | _, [], m => .ok (none, m)
  | i, (t, tPtr) :: cs, m =>
    (run e (caseCheck e t tPtr) m).bind fun m =>
      match m.stack with
      | b :: st =>
        if b ≠ 0 then (run e (caseBind e t) { m with stack := st }).bind fun m => .ok (some i, m)
        else (run e [.pop] { m with stack := st }).bind fun m => typeSwitch e (i + 1) cs m
      | _ => .ub

end Umka.Iface
