/-!
# The listing of the compiled program: model

`umkaAsm` (`umka_api.c:154`), `compilerAsm` (`umka_compiler.c:288-300`), `genAsm` (`umka_gen.c:1206-1243`), `vmAsm` (`umka_vm.c:4217-4316`): the text is
made twice, the first time to learn its length.

Simplifications.  Lengths are natural numbers (`int` in C); the texts of real numbers and addresses are those of the C library; the buffers for
spellings of types and names (`DEFAULT_STR_LEN`) are taken as long enough: their contents are given.
-/

namespace Umka.Asm

abbrev Text := List Char

/-- The byte that ends a string. -/
def nul : Char := Char.ofNat 0

/-- The opcodes, `umka_vm.h:51-101`. -/
inductive Opcode
  | nop | push | pushGlobal | pushZero | pushLocalPtr | pushLocalPtrZero | pushLocal | pushReg | pushUpvalue | pop | popReg | dup | swap | zero | deref
  | assign | swapAssign | assignParam | refCnt | refCntGlobal | refCntLocal | refCntAssign | swapRefCntAssign | unary | binary | getArrayPtr | getArray
  | getDynArrayPtr | getDynArray | getMapPtr | getMap | getFieldPtr | getField | assertType | assertRange | weakenPtr | strengthenPtr | goto | gotoIf
  | gotoIfNot | call | callIndirect | callExtern | callBuiltin | return | enterFrame | leaveFrame | halt
  deriving DecidableEq, Repr

/-- `typeKind` of an instruction as far as the listing distinguishes it. -/
inductive Kind
  | ptr | real | other
  deriving DecidableEq, Repr

/-- An instruction (`umka_vm.h`), its operand under all its names (it is a union). -/
structure Instr where
  opcode : Opcode
  /-- the spelling of `tokKind`, if it is not `TOK_NONE` -/
  tok : Option Text
  /-- the spelling of `type`, if any -/
  type : Option Text
  /-- `typeKind` and its spelling, if it is not `TYPE_NONE` -/
  typeKind : Option (Kind × Text)
  int : Int
  lo : Int
  hi : Int
  real : Nat
  ptr : Nat

/-- `DebugInfo`. -/
structure Debug where
  file : Text
  fn : Text
  line : Nat

/-- What the listing refers to: spellings of opcodes, registers, built-in functions, global variables, and the C library. -/
structure Names where
  opcode : Opcode → Text
  reg : Int → Text
  builtin : Int → Text
  global : Nat → Option Text
  real : Nat → Text
  ptr : Nat → Text

/-- A buffer: none for `NULL`. -/
abbrev Buf := Option (List Char)

/-- `snprintf` of C at the address `at` in the buffer: at most `size - 1` characters, then the end; the result is the length of the text.  `none`: a
write outside the buffer or an address outside it. -/
def snprintf (buf : Buf) («at» size : Nat) (t : Text) : Option (Nat × Buf) :=
  match buf with
  | none => if size = 0 then some (t.length, none) else none
  | some m =>
    if m.length < «at» then none
    else if size = 0 then some (t.length, some m)
    else
      let n := min t.length (size - 1)
      if m.length < «at» + n + 1 then none
      else some (t.length, some (m.take «at» ++ t.take n ++ nul :: m.drop («at» + n + 1)))

/-- `chars += snprintf(nonnull(buf, chars), nonneg(size - chars), ...)`; the buffer begins at `base`. -/
def put (base size : Nat) (st : Nat × Buf) (t : Text) : Option (Nat × Buf) :=
  (snprintf st.2 (base + st.1) (size - st.1) t).map fun r => (st.1 + r.1, r.2)

/-- A decimal number, filled up on the left: `%09d`, `%6d`. -/
def pad (fill : Char) (width : Nat) (t : Text) : Text := List.replicate (width - t.length) fill ++ t

def decimal (n : Int) : Text := (toString n).toList

/-- `identSpellingByPtr`, `umka_ident.c:422-434`. -/
def globalName (N : Names) (p : Nat) : Text := (N.global p).getD (N.ptr p)

/-- The operand, `umka_vm.c:4240-4313`. -/
def operand (N : Names) (debug : List Debug) (i : Instr) : Option Text :=
  match i.opcode with
  | .push =>
    if i.typeKind.map (·.1) = some .ptr then some (' ' :: globalName N i.ptr)
    else if i.typeKind.map (·.1) = some .real then some (' ' :: N.real i.real)
    else some (' ' :: decimal i.int)
  | .pushReg | .popReg => some (' ' :: N.reg i.int)
  | .pushZero | .pushLocalPtr | .pushLocal | .pop | .zero | .assign | .swapAssign | .assignParam | .refCntLocal | .getFieldPtr | .getField | .goto | .gotoIf
  | .gotoIfNot | .callIndirect | .return => some (' ' :: decimal i.int)
  | .call => some (' ' :: (((debug[i.int.toNat]?).map (·.fn)).getD []) ++ " (".toList ++ decimal i.int ++ [')'])
  | .pushLocalPtrZero | .getArrayPtr | .getArray => some (' ' :: decimal i.lo ++ ' ' :: decimal i.hi)
  | .pushGlobal | .refCntGlobal => some (' ' :: globalName N i.ptr)
  | .enterFrame | .callExtern => some (' ' :: N.ptr i.ptr)
  | .callBuiltin => some (' ' :: N.builtin i.int)
  | _ => none

def putOpt (base size : Nat) (st : Nat × Buf) : Option Text → Option (Nat × Buf)
  | some t => put base size st t
  | none => some st

/-- `vmAsm`, `umka_vm.c:4217-4316`. -/
def vmAsm (N : Names) (ip : Nat) (debug : List Debug) (line : Nat) (i : Instr) (buf : Buf) (base size : Nat) : Option (Nat × Buf) := do
  let st ← put base size (0, buf) (pad '0' 9 (decimal ip) ++ ' ' :: pad ' ' 6 (decimal line) ++ ' ' :: pad ' ' 28 (N.opcode i.opcode))
  let st ← putOpt base size st (i.tok.map fun t => ' ' :: t)
  let st ← putOpt base size st (i.type.map fun t => ' ' :: t)
  let st ← (if i.type = none ∨ i.opcode = .assertRange ∨ i.opcode = .getMap then putOpt base size st (i.typeKind.map fun t => ' ' :: t.2) else some st)
  putOpt base size st (operand N debug i)

/-- The first loop of `genAsm`, `umka_gen.c:1211-1219`: the targets of jumps.  `none`: an access outside the arrays, which have `capacity + 1` elements. -/
def targets (capacity : Nat) : List Instr → Option (List Nat)
  | [] => none
  | i :: rest =>
    let jump := i.opcode = .goto ∨ i.opcode = .gotoIf ∨ i.opcode = .gotoIfNot
    if jump ∧ ¬ (0 ≤ i.int ∧ i.int ≤ capacity) then none
    else if i.opcode = .halt then some []
    else do
      let ts ← targets capacity rest
      return if jump then i.int.toNat :: ts else ts

/-- The second loop, `umka_gen.c:1221-1237`.  `prev` is the file of the instruction before, if any. -/
def loop (N : Names) (debug : List Debug) (to : List Nat) (size : Nat) : Nat → Option Text → List Instr → Nat × Buf → Option (Nat × Buf)
  | _, _, [], _ => none
  | ip, prev, i :: rest, st =>
    match debug[ip]? with
    | none => none
    | some d => do
      let st ← (if prev ≠ some d.file then put 0 size st ("\nModule: ".toList ++ d.file ++ "\n\n".toList) else some st)
      let st ← (if i.opcode = .enterFrame then put 0 size st ("\nFunction: ".toList ++ d.fn ++ "\n\n".toList) else some st)
      let (n, buf) ← vmAsm N ip debug d.line i st.2 st.1 (size - st.1)
      let st ← put 0 size (st.1 + n, buf) ['\n']
      let jump := i.opcode = .goto ∨ i.opcode = .gotoIf ∨ i.opcode = .gotoIfNot
      let st ← (if i.opcode = .return ∨ jump ∨ ip + 1 ∈ to then put 0 size st ['\n'] else some st)
      if i.opcode = .halt then some st else loop N debug to size (ip + 1) (some d.file) rest st

/-- `genAsm`, `umka_gen.c:1206-1243`. -/
def genAsm (N : Names) (capacity : Nat) (code : List Instr) (debug : List Debug) (buf : Buf) (size : Nat) : Option (Nat × Buf) := do
  let to ← targets capacity code
  loop N debug to size 0 none code (0, buf)

/-- `compilerAsm`, `umka_compiler.c:288-300`: the string returned.  `none`: undefined behaviour. -/
def asm (N : Names) (capacity : Nat) (code : List Instr) (debug : List Debug) : Option Text := do
  let (chars, _) ← genAsm N capacity code debug none 0
  let (_, buf) ← genAsm N capacity code debug (some (List.replicate (chars + 1) nul)) chars
  let m ← buf
  return (m.set chars nul).takeWhile (· != nul)

end Umka.Asm
