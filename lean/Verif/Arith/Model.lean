/-! # Integer arithmetic, loads, stores and conversions: the code

A stack slot (`Slot`, `umka_vm.h`; `Const`, `umka_const.h`) is a 64-bit word read as `int64_t`
(`intVal`) or `uint64_t` (`uintVal`).  Memory is a byte array, little endian.

Simplifications: real numbers are abstract and only occur in the built-in functions at the end; the text of an error message is replaced by a constructor.  Signed overflow and
out-of-range shift counts are undefined behaviour in C (the project is built without `-fwrapv`,
`Makefile:37`) and are the separate outcome `ub`.  A left shift of a negative number is taken to be
what GCC documents (a shift of the bit pattern). -/

namespace Umka.Arith

/-- Ordinal type kinds.  Models `TypeKind`, `umka_types.h:16-50`, restricted to `typeKindOrdinal`,
`umka_types.h:260-263` (enumerations have the kind of their base type). -/
inductive Kind
  | int8 | int16 | int32 | int | uint8 | uint16 | uint32 | uint | bool | char
  deriving DecidableEq, Repr

/-- Run-time or compile-time errors. -/
inductive Err
  | overflow (k : Kind) | divisionByZero | nullPointer | illegalOperator | illegalType | domain
  deriving DecidableEq, Repr

/-- Outcome of an operation: a value, an error reported to the user (the handler `longjmp`s away, so
nothing after it runs), or undefined behaviour of the C program. -/
inductive Res (α : Type)
  | ok (a : α) | err (e : Err) | ub
  deriving DecidableEq, Repr

def Res.bind {α β : Type} : Res α → (α → Res β) → Res β
  | .ok a, f => f a
  | .err e, _ => .err e
  | .ub, _ => .ub

abbrev Slot := BitVec 64
abbrev Mem := Nat → BitVec 8

/-! ## Memory -/

/-- `*(uintN_t *)addr = v` with `8 * n` bits: the value modulo `256 ^ n`, low byte first. -/
def writeBytes (mem : Mem) (addr : Nat) : Nat → Nat → Mem
  | 0, _ => mem
  | n + 1, v => writeBytes (fun a => if a = addr then BitVec.ofNat 8 v else mem a) (addr + 1) n (v / 256)

/-- `*(uintN_t *)addr` with `8 * n` bits. -/
def readBytes (mem : Mem) (addr : Nat) : Nat → Nat
  | 0 => 0
  | n + 1 => (mem addr).toNat + 256 * readBytes mem (addr + 1) n

/-- `*(intN_t *)addr` with `8 * n` bits, converted to `int64_t`. -/
def readSigned (mem : Mem) (addr n : Nat) : Slot :=
  BitVec.ofInt 64 (Int.bmod (readBytes mem addr n) (256 ^ n))

/-- `*(uintN_t *)addr` converted to `int64_t`. -/
def readUnsigned (mem : Mem) (addr n : Nat) : Slot := BitVec.ofNat 64 (readBytes mem addr n)

/-! ## Types -/

/-- `typeKindSigned`, `umka_types.h:294-297`; the source kind may be `TYPE_VOID` (`none`). -/
def kindSigned : Option Kind → Bool
  | some .int8 | some .int16 | some .int32 | some .int => true
  | _ => false

/-- `typeConvOverflow`, `umka_types.h:378-411`, ordinal destinations.  `none` is `TYPE_VOID`. -/
def typeConvOverflow (dest : Kind) (src : Option Kind) (val : Slot) : Bool :=
  let fromVeryBigUInt := decide (val.toInt < 0) && src == some .uint
  let fromNegativeInt := decide (val.toInt < 0) && kindSigned src
  match dest with
  | .int8 => decide (val.toInt < -128) || decide (val.toInt > 127) || fromVeryBigUInt
  | .int16 => decide (val.toInt < -32768) || decide (val.toInt > 32767) || fromVeryBigUInt
  | .int32 => decide (val.toInt < -2147483647 - 1) || decide (val.toInt > 2147483647) || fromVeryBigUInt
  | .int => fromVeryBigUInt
  | .uint8 => decide (val.toInt < 0) || decide (val.toInt > 255)
  | .uint16 => decide (val.toInt < 0) || decide (val.toInt > 65535)
  | .uint32 => decide (val.toInt < 0) || decide (val.toInt > 4294967295)
  | .uint => fromNegativeInt
  | .bool => decide (val.toInt < 0) || decide (val.toInt > 1)
  | .char => decide (val.toInt < 0) || decide (val.toInt > 255)

/-- `typeOverflow`, `umka_types.h:414-417`. -/
def typeOverflow (k : Kind) (val : Slot) : Bool := typeConvOverflow k none val

/-! ## Loads and stores at run time -/

/-- `doDerefImpl`, `umka_vm.c:977-1015`, ordinal kinds. -/
def doDeref (k : Kind) (mem : Mem) (addr : Nat) : Res Slot :=
  if addr = 0 then .err .nullPointer else
  match k with
  | .int8 => .ok (readSigned mem addr 1)
  | .int16 => .ok (readSigned mem addr 2)
  | .int32 => .ok (readSigned mem addr 4)
  | .int => .ok (readSigned mem addr 8)
  | .uint8 => .ok (readUnsigned mem addr 1)
  | .uint16 => .ok (readUnsigned mem addr 2)
  | .uint32 => .ok (readUnsigned mem addr 4)
  | .uint => .ok (readUnsigned mem addr 8)
  | .bool => .ok (readUnsigned mem addr 1)
  | .char => .ok (readUnsigned mem addr 1)

/-- `doAssignImpl`, `umka_vm.c:1018-1066`, ordinal kinds.  A conversion to `bool` in C yields 0 or 1. -/
def doAssign (k : Kind) (mem : Mem) (addr : Nat) (rhs : Slot) : Res Mem :=
  if addr = 0 then .err .nullPointer else
  if typeOverflow k rhs then .err (.overflow k) else
  match k with
  | .int8 => .ok (writeBytes mem addr 1 rhs.toNat)
  | .int16 => .ok (writeBytes mem addr 2 rhs.toNat)
  | .int32 => .ok (writeBytes mem addr 4 rhs.toNat)
  | .int => .ok (writeBytes mem addr 8 rhs.toNat)
  | .uint8 => .ok (writeBytes mem addr 1 rhs.toNat)
  | .uint16 => .ok (writeBytes mem addr 2 rhs.toNat)
  | .uint32 => .ok (writeBytes mem addr 4 rhs.toNat)
  | .uint => .ok (writeBytes mem addr 8 rhs.toNat)
  | .bool => .ok (writeBytes mem addr 1 (if rhs = 0 then 0 else 1))
  | .char => .ok (writeBytes mem addr 1 rhs.toNat)

/-! ## Conversions -/

/-- `doAssertRange`, `umka_vm.c:3734-3749`, and the constant branch of
`doOrdinalToOrdinalOrRealToRealConv`, `umka_expr.c:132-143`: the same check at run time and at compile
time; the value itself is not changed. -/
def doAssertRange (dest src : Kind) (val : Slot) : Res Slot :=
  if typeConvOverflow dest (some src) val then .err (.overflow dest) else .ok val

/-- `doImplicitTypeConvEx`, `umka_expr.c:577-585`, ordinal types; `operand` is `lhs || rhs`. -/
def implicitConv (dest src : Kind) (operand : Bool) (val : Slot) : Res Slot :=
  if !operand && ((dest == .uint && kindSigned (some src)) || (kindSigned (some dest) && src == .uint)) then
    doAssertRange dest src val
  else .ok val

/-- `doExplicitTypeConv`, `umka_expr.c:692-707`, `T(x)` for ordinal types: the implicit conversion
first, and, unless the types are now the same, the range check.  (Two different types of the same kind
only differ in the identifier or the enumeration; the check is then repeated with equal kinds.) -/
def explicitConv (dest src : Kind) (val : Slot) : Res Slot :=
  (implicitConv dest src false val).bind fun v =>
    let src' := if (dest == .uint && kindSigned (some src)) || (kindSigned (some dest) && src == .uint) then dest else src
    if dest = src' then .ok v else doAssertRange dest src' v

/-- Assignment `x = e` to a variable of kind `dest` of an expression of kind `src`:
`parseSingleAssignmentStmt`, `umka_stmt.c:193-217`: implicit conversion, then the store. -/
def assign (dest src : Kind) (mem : Mem) (addr : Nat) (val : Slot) : Res Mem :=
  (implicitConv dest src false val).bind fun v => doAssign dest mem addr v

/-! ## Operators at run time -/

inductive BinOp
  | plus | minus | mul | div | mod | shl | shr | and | or | xor
  | eqeq | noteq | greater | less | greatereq | lesseq
  deriving DecidableEq, Repr

inductive UnOp
  | plus | minus | not | xor
  deriving DecidableEq, Repr

/-- The result of a C comparison. -/
def ofBool (b : Bool) : Slot := if b then 1 else 0

/-- An `int64_t` result, or undefined behaviour if the exact result does not fit. -/
def checkedInt (v : Int) : Res Slot :=
  if -2 ^ 63 ≤ v ∧ v < 2 ^ 63 then .ok (BitVec.ofInt 64 v) else .ub

/-- `doUnary`, `umka_vm.c:3338-3343`: operators on a value of an ordinal type. -/
def doUnary (op : UnOp) (arg : Slot) : Res Slot :=
  match op with
  | .plus => .ok arg
  | .minus => checkedInt (-arg.toInt)
  | .not => .ok (ofBool (arg == 0))
  | .xor => .ok (~~~arg)

/-- `doBinary`, `umka_vm.c:3509-3552`: branch for `TYPE_UINT`. -/
def doBinaryUInt (op : BinOp) (lhs rhs : Slot) : Res Slot :=
  match op with
  | .plus => .ok (lhs + rhs)
  | .minus => .ok (lhs - rhs)
  | .mul => .ok (lhs * rhs)
  | .div => if rhs = 0 then .err .divisionByZero else .ok (lhs / rhs)
  | .mod => if rhs = 0 then .err .divisionByZero else .ok (lhs % rhs)
  | .shl => if rhs.toNat < 64 then .ok (lhs <<< rhs.toNat) else .ub
  | .shr => if rhs.toNat < 64 then .ok (lhs >>> rhs.toNat) else .ub
  | .and => .ok (lhs &&& rhs)
  | .or => .ok (lhs ||| rhs)
  | .xor => .ok (lhs ^^^ rhs)
  | .eqeq => .ok (ofBool (lhs.toNat == rhs.toNat))
  | .noteq => .ok (ofBool (lhs.toNat != rhs.toNat))
  | .greater => .ok (ofBool (decide (lhs.toNat > rhs.toNat)))
  | .less => .ok (ofBool (decide (lhs.toNat < rhs.toNat)))
  | .greatereq => .ok (ofBool (decide (lhs.toNat ≥ rhs.toNat)))
  | .lesseq => .ok (ofBool (decide (lhs.toNat ≤ rhs.toNat)))

/-- `doBinary`, `umka_vm.c:3553-3603`: branch for all ordinal types except `TYPE_UINT`. -/
def doBinaryInt (op : BinOp) (lhs rhs : Slot) : Res Slot :=
  match op with
  | .plus => checkedInt (lhs.toInt + rhs.toInt)
  | .minus => checkedInt (lhs.toInt - rhs.toInt)
  | .mul => checkedInt (lhs.toInt * rhs.toInt)
  | .div =>
    if rhs.toInt = 0 then .err .divisionByZero
    else if lhs.toInt = -2 ^ 63 ∧ rhs.toInt = -1 then .err (.overflow .int)
    else checkedInt (lhs.toInt.tdiv rhs.toInt)
  | .mod =>
    if rhs.toInt = 0 then .err .divisionByZero
    else if lhs.toInt = -2 ^ 63 ∧ rhs.toInt = -1 then .err (.overflow .int)
    else checkedInt (lhs.toInt.tmod rhs.toInt)
  | .shl => if 0 ≤ rhs.toInt ∧ rhs.toInt < 64 then .ok (lhs <<< rhs.toNat) else .ub
  | .shr => if 0 ≤ rhs.toInt ∧ rhs.toInt < 64 then .ok (lhs.sshiftRight rhs.toNat) else .ub
  | .and => .ok (lhs &&& rhs)
  | .or => .ok (lhs ||| rhs)
  | .xor => .ok (lhs ^^^ rhs)
  | .eqeq => .ok (ofBool (lhs.toInt == rhs.toInt))
  | .noteq => .ok (ofBool (lhs.toInt != rhs.toInt))
  | .greater => .ok (ofBool (decide (lhs.toInt > rhs.toInt)))
  | .less => .ok (ofBool (decide (lhs.toInt < rhs.toInt)))
  | .greatereq => .ok (ofBool (decide (lhs.toInt ≥ rhs.toInt)))
  | .lesseq => .ok (ofBool (decide (lhs.toInt ≤ rhs.toInt)))

/-- `doBinary`, `umka_vm.c:3391-3606`, ordinal types. -/
def doBinary (op : BinOp) (type : Kind) (lhs rhs : Slot) : Res Slot :=
  if type = .uint then doBinaryUInt op lhs rhs else doBinaryInt op lhs rhs

/-- `doApplyOperator`, `umka_expr.c:772-797`, for two operands of integer types: the operands are
flagged as operands of a binary operator, so that no conversion between signed and unsigned takes
place, and the operator is applied with the type of the LEFT operand (`constant == NULL`, run time). -/
def applyOperator (op : BinOp) (ltype rtype : Kind) (lhs rhs : Slot) : Res Slot :=
  (implicitConv ltype rtype true rhs).bind fun r =>
    (implicitConv rtype ltype true lhs).bind fun l =>
      doBinary op ltype l r

/-! ## Increment, decrement and short assignment -/

/-- `doUnary` with `TOK_PLUSPLUS`/`TOK_MINUSMINUS`, `umka_vm.c:3345-3382`, on the variable at `addr`.
The 8- and 16-bit types are promoted to `int` and converted back (wrapping); `int32_t` and `int64_t`
overflow is undefined; unsigned types wrap.  The null check is not there in C (`slot->ptrVal` is
dereferenced right away): undefined. -/
def incDec (delta : Int) (k : Kind) (mem : Mem) (addr : Nat) : Res Mem :=
  if addr = 0 then .ub else
  match k with
  | .int8 => .ok (writeBytes mem addr 1 (BitVec.ofInt 64 ((readSigned mem addr 1).toInt + delta)).toNat)
  | .int16 => .ok (writeBytes mem addr 2 (BitVec.ofInt 64 ((readSigned mem addr 2).toInt + delta)).toNat)
  | .int32 =>
    if -2 ^ 31 ≤ (readSigned mem addr 4).toInt + delta ∧ (readSigned mem addr 4).toInt + delta < 2 ^ 31 then
      .ok (writeBytes mem addr 4 (BitVec.ofInt 64 ((readSigned mem addr 4).toInt + delta)).toNat)
    else .ub
  | .int =>
    (checkedInt ((readSigned mem addr 8).toInt + delta)).bind fun v => .ok (writeBytes mem addr 8 v.toNat)
  | .uint8 => .ok (writeBytes mem addr 1 (readUnsigned mem addr 1 + BitVec.ofInt 64 delta).toNat)
  | .uint16 => .ok (writeBytes mem addr 2 (readUnsigned mem addr 2 + BitVec.ofInt 64 delta).toNat)
  | .uint32 => .ok (writeBytes mem addr 4 (readUnsigned mem addr 4 + BitVec.ofInt 64 delta).toNat)
  | .uint => .ok (writeBytes mem addr 8 (readUnsigned mem addr 8 + BitVec.ofInt 64 delta).toNat)
  | .bool | .char => .err .illegalType

/-- `x op= e`, `parseShortAssignmentStmt`, `umka_stmt.c:289-311`: duplicate the designator, load, apply
the operator with the type of `x` (no conversion of the left operand), store. -/
def shortAssign (op : BinOp) (k rtype : Kind) (mem : Mem) (addr : Nat) (rhs : Slot) : Res Mem :=
  (doDeref k mem addr).bind fun l =>
    (implicitConv k rtype true rhs).bind fun r =>
      (doBinary op k l r).bind fun v => doAssign k mem addr v

/-! ## Operators at compile time -/

/-- `constDeref`, `umka_const.c:25-67`, ordinal kinds. -/
def constDeref (k : Kind) (mem : Mem) (addr : Nat) : Res Slot :=
  if addr = 0 then .err .nullPointer else
  match k with
  | .int8 => .ok (readSigned mem addr 1)
  | .int16 => .ok (readSigned mem addr 2)
  | .int32 => .ok (readSigned mem addr 4)
  | .int => .ok (readSigned mem addr 8)
  | .uint8 => .ok (readUnsigned mem addr 1)
  | .uint16 => .ok (readUnsigned mem addr 2)
  | .uint32 => .ok (readUnsigned mem addr 4)
  | .uint => .ok (readUnsigned mem addr 8)
  | .bool => .ok (readUnsigned mem addr 1)
  | .char => .ok (readUnsigned mem addr 1)

/-- `constAssign`, `umka_const.c:70-114`, ordinal kinds.  The compiler only passes addresses of its own
storage, so there is no null check. -/
def constAssign (k : Kind) (mem : Mem) (addr : Nat) (rhs : Slot) : Res Mem :=
  if typeOverflow k rhs then .err (.overflow k) else
  match k with
  | .int8 => .ok (writeBytes mem addr 1 rhs.toNat)
  | .int16 => .ok (writeBytes mem addr 2 rhs.toNat)
  | .int32 => .ok (writeBytes mem addr 4 rhs.toNat)
  | .int => .ok (writeBytes mem addr 8 rhs.toNat)
  | .uint8 => .ok (writeBytes mem addr 1 rhs.toNat)
  | .uint16 => .ok (writeBytes mem addr 2 rhs.toNat)
  | .uint32 => .ok (writeBytes mem addr 4 rhs.toNat)
  | .uint => .ok (writeBytes mem addr 8 rhs.toNat)
  | .bool => .ok (writeBytes mem addr 1 (if rhs = 0 then 0 else 1))
  | .char => .ok (writeBytes mem addr 1 rhs.toNat)

/-- `constUnary`, `umka_const.c:228-240`, ordinal types. -/
def constUnary (op : UnOp) (arg : Slot) : Res Slot :=
  match op with
  | .plus => .ok arg
  | .minus => checkedInt (-arg.toInt)
  | .not => .ok (ofBool (arg == 0))
  | .xor => .ok (~~~arg)

/-- `constBinary`, `umka_const.c:332-372`: branch for `TYPE_UINT`. -/
def constBinaryUInt (op : BinOp) (lhs rhs : Slot) : Res Slot :=
  match op with
  | .plus => .ok (lhs + rhs)
  | .minus => .ok (lhs - rhs)
  | .mul => .ok (lhs * rhs)
  | .div => if rhs = 0 then .err .divisionByZero else .ok (lhs / rhs)
  | .mod => if rhs = 0 then .err .divisionByZero else .ok (lhs % rhs)
  | .shl => if rhs.toNat < 64 then .ok (lhs <<< rhs.toNat) else .ub
  | .shr => if rhs.toNat < 64 then .ok (lhs >>> rhs.toNat) else .ub
  | .and => .ok (lhs &&& rhs)
  | .or => .ok (lhs ||| rhs)
  | .xor => .ok (lhs ^^^ rhs)
  | .eqeq => .ok (ofBool (lhs.toNat == rhs.toNat))
  | .noteq => .ok (ofBool (lhs.toNat != rhs.toNat))
  | .greater => .ok (ofBool (decide (lhs.toNat > rhs.toNat)))
  | .less => .ok (ofBool (decide (lhs.toNat < rhs.toNat)))
  | .greatereq => .ok (ofBool (decide (lhs.toNat ≥ rhs.toNat)))
  | .lesseq => .ok (ofBool (decide (lhs.toNat ≤ rhs.toNat)))

/-- `constBinary`, `umka_const.c:373-420`: branch for all ordinal types except `TYPE_UINT`. -/
def constBinaryInt (op : BinOp) (lhs rhs : Slot) : Res Slot :=
  match op with
  | .plus => checkedInt (lhs.toInt + rhs.toInt)
  | .minus => checkedInt (lhs.toInt - rhs.toInt)
  | .mul => checkedInt (lhs.toInt * rhs.toInt)
  | .div =>
    if rhs.toInt = 0 then .err .divisionByZero
    else if lhs.toInt = -2 ^ 63 ∧ rhs.toInt = -1 then .err (.overflow .int)
    else checkedInt (lhs.toInt.tdiv rhs.toInt)
  | .mod =>
    if rhs.toInt = 0 then .err .divisionByZero
    else if lhs.toInt = -2 ^ 63 ∧ rhs.toInt = -1 then .err (.overflow .int)
    else checkedInt (lhs.toInt.tmod rhs.toInt)
  | .shl => if 0 ≤ rhs.toInt ∧ rhs.toInt < 64 then .ok (lhs <<< rhs.toNat) else .ub
  | .shr => if 0 ≤ rhs.toInt ∧ rhs.toInt < 64 then .ok (lhs.sshiftRight rhs.toNat) else .ub
  | .and => .ok (lhs &&& rhs)
  | .or => .ok (lhs ||| rhs)
  | .xor => .ok (lhs ^^^ rhs)
  | .eqeq => .ok (ofBool (lhs.toInt == rhs.toInt))
  | .noteq => .ok (ofBool (lhs.toInt != rhs.toInt))
  | .greater => .ok (ofBool (decide (lhs.toInt > rhs.toInt)))
  | .less => .ok (ofBool (decide (lhs.toInt < rhs.toInt)))
  | .greatereq => .ok (ofBool (decide (lhs.toInt ≥ rhs.toInt)))
  | .lesseq => .ok (ofBool (decide (lhs.toInt ≤ rhs.toInt)))

/-- `constBinary`, `umka_const.c:247-421`, ordinal types. -/
def constBinary (op : BinOp) (type : Kind) (lhs rhs : Slot) : Res Slot :=
  if type = .uint then constBinaryUInt op lhs rhs else constBinaryInt op lhs rhs

/-- `doApplyOperator`, `umka_expr.c:772-797`, for two constant operands. -/
def applyOperatorConst (op : BinOp) (ltype rtype : Kind) (lhs rhs : Slot) : Res Slot :=
  (implicitConv ltype rtype true rhs).bind fun r =>
    (implicitConv rtype ltype true lhs).bind fun l =>
      constBinary op ltype l r

/-! ## Built-in functions on numbers

Reals are an abstract type with the C library functions as parameters. -/

/-- The floating-point operations used by the built-in functions. -/
structure RealOps (R : Type) where
  isZero : R → Bool
  ltZero : R → Bool
  leZero : R → Bool
  ofInt : Int → R
  ofNat : Nat → R
  /-- `(int64_t)round(x)` etc.: an `int64_t`, or undefined if out of range -/
  round : R → Option Slot
  trunc : R → Option Slot
  ceil : R → Option Slot
  floor : R → Option Slot
  fabs : R → R
  sqrt : R → R
  sin : R → R
  cos : R → R
  atan : R → R
  atan2 : R → R → R
  exp : R → R
  log : R → R

inductive Num (R : Type)
  | i (v : Slot) | r (v : R)

inductive Builtin
  | makereal | round | trunc | ceil | floor | abs | fabs | sqrt | sin | cos | atan | atan2 | exp | log
  deriving DecidableEq, Repr

def optInt {R : Type} : Option Slot → Res (Num R)
  | some v => .ok (.i v)
  | none => .ub

/-- `llabs` -/
def llabs (v : Slot) : Slot := if v.toInt < 0 then -v else v

/-- Run time: `doCallBuiltin`, `umka_vm.c:3891-3947`; `x` is the first argument of `atan2(y, x)` in
source order, `y` the second (the VM pops the second argument first). -/
def callBuiltin {R : Type} (o : RealOps R) (f : Builtin) (k : Kind) (x : Num R) (y : R) : Res (Num R) :=
  match f, x with
  | .makereal, .i v => if k = .uint then .ok (.r (o.ofNat v.toNat)) else .ok (.r (o.ofInt v.toInt))
  | .round, .r v => optInt (o.round v)
  | .trunc, .r v => optInt (o.trunc v)
  | .ceil, .r v => optInt (o.ceil v)
  | .floor, .r v => optInt (o.floor v)
  | .abs, .i v => if v.toInt = -2 ^ 63 then .err .domain else .ok (.i (llabs v))
  | .fabs, .r v => .ok (.r (o.fabs v))
  | .sqrt, .r v => if o.ltZero v then .err .domain else .ok (.r (o.sqrt v))
  | .sin, .r v => .ok (.r (o.sin v))
  | .cos, .r v => .ok (.r (o.cos v))
  | .atan, .r v => .ok (.r (o.atan v))
  | .atan2, .r v => if o.isZero y && o.isZero v then .err .domain else .ok (.r (o.atan2 v y))
  | .exp, .r v => .ok (.r (o.exp v))
  | .log, .r v => if o.leZero v then .err .domain else .ok (.r (o.log v))
  | _, _ => .ub

/-- Compile time: `constCallBuiltin`, `umka_const.c:423-483`. -/
def constCallBuiltin {R : Type} (o : RealOps R) (f : Builtin) (k : Kind) (x : Num R) (y : R) :
    Res (Num R) :=
  match f, x with
  | .makereal, .i v => if k = .uint then .ok (.r (o.ofNat v.toNat)) else .ok (.r (o.ofInt v.toInt))
  | .round, .r v => optInt (o.round v)
  | .trunc, .r v => optInt (o.trunc v)
  | .ceil, .r v => optInt (o.ceil v)
  | .floor, .r v => optInt (o.floor v)
  | .abs, .i v => if v.toInt = -2 ^ 63 then .err .domain else .ok (.i (llabs v))
  | .fabs, .r v => .ok (.r (o.fabs v))
  | .sqrt, .r v => if o.ltZero v then .err .domain else .ok (.r (o.sqrt v))
  | .sin, .r v => .ok (.r (o.sin v))
  | .cos, .r v => .ok (.r (o.cos v))
  | .atan, .r v => .ok (.r (o.atan v))
  | .atan2, .r v => if o.isZero v || o.isZero y then .err .domain else .ok (.r (o.atan2 v y))
  | .exp, .r v => .ok (.r (o.exp v))
  | .log, .r v => if o.leZero v then .err .domain else .ok (.r (o.log v))
  | _, _ => .ub

end Umka.Arith
