import Verif.Asm.Model
/-!
# The listing: specification

The listing shows every instruction up to the final one, in order, each on a line of its own, with a headline for each module and each function, and an empty line after
every place where the flow of control may change.
-/

namespace Umka.Asm.Spec

/-- Flow of control may leave the sequence here. -/
def Jumps (i : Instr) : Prop := i.opcode ∈ [Opcode.goto, .gotoIf, .gotoIfNot]

instance (i : Instr) : Decidable (Jumps i) := by unfold Jumps; infer_instance

/-- Some instruction of the program jumps to this place. -/
def Target (code : List Instr) (ip : Nat) : Prop := ∃ i ∈ code, Jumps i ∧ i.int = ip

instance (code : List Instr) (ip : Nat) : Decidable (Target code ip) := by unfold Target; infer_instance

/-- The instructions whose operand is a plain number. -/
def numbers : List Opcode :=
  [.pushZero, .pushLocalPtr, .pushLocal, .pop, .zero, .assign, .swapAssign, .assignParam, .refCntLocal, .getFieldPtr, .getField, .goto, .gotoIf,
   .gotoIfNot, .callIndirect, .return]

/-- The name of the function that begins at an instruction. -/
def fnAt (debug : List Debug) (k : Int) : Text := match debug[k.toNat]? with
  | some d => d.fn
  | none => []

/-- The name of a global variable, or the address. -/
def place (N : Names) (p : Nat) : Text := match N.global p with
  | some t => t
  | none => N.ptr p

/-- The words after the opcode. -/
def words (N : Names) (debug : List Debug) (i : Instr) : List Text :=
  i.tok.toList ++ i.type.toList ++
  (if i.type = none ∨ i.opcode = .assertRange ∨ i.opcode = .getMap then (i.typeKind.map (·.2)).toList else []) ++
  (if i.opcode ∈ numbers then [decimal i.int]
   else if i.opcode = .push then
     (match i.typeKind with
      | some (.ptr, _) => [place N i.ptr]
      | some (.real, _) => [N.real i.real]
      | _ => [decimal i.int])
   else if i.opcode = .pushReg ∨ i.opcode = .popReg then [N.reg i.int]
   else if i.opcode = .call then [fnAt debug i.int, '(' :: decimal i.int ++ [')']]
   else if i.opcode ∈ [Opcode.pushLocalPtrZero, .getArrayPtr, .getArray] then [decimal i.lo, decimal i.hi]
   else if i.opcode = .pushGlobal ∨ i.opcode = .refCntGlobal then [place N i.ptr]
   else if i.opcode = .enterFrame ∨ i.opcode = .callExtern then [N.ptr i.ptr]
   else if i.opcode = .callBuiltin then [N.builtin i.int]
   else [])

/-- The line of an instruction: its number, the line of the source, the opcode, and the words. -/
def line (N : Names) (debug : List Debug) (d : Debug) (ip : Nat) (i : Instr) : Text :=
  pad '0' 9 (decimal ip) ++ ' ' :: pad ' ' 6 (decimal d.line) ++ ' ' :: pad ' ' 28 (N.opcode i.opcode) ++
  ((words N debug i).map fun w => ' ' :: w).flatten ++ ['\n']

/-- What is shown of an instruction. -/
def section' (N : Names) (code : List Instr) (debug : List Debug) (prev : Option Debug) (d : Debug) (ip : Nat) (i : Instr) : Text :=
  (if prev.map (·.file) ≠ some d.file then "\nModule: ".toList ++ d.file ++ "\n\n".toList else []) ++
  (if i.opcode = .enterFrame then "\nFunction: ".toList ++ d.fn ++ "\n\n".toList else []) ++
  line N debug d ip i ++
  (if i.opcode = .return ∨ Jumps i ∨ Target code (ip + 1) then ['\n'] else [])

/-- The whole listing of a program. -/
def listing (N : Names) (code : List Instr) (debug : List Debug) : Text :=
  ((List.range code.length).map fun ip =>
    match code[ip]?, debug[ip]? with
    | some i, some d => section' N code debug (if ip = 0 then none else debug[ip - 1]?) d ip i
    | _, _ => []).flatten

/-- A compiled program: the last instruction and no other is the final one, every instruction has its place in the source, and jumps stay within the program. -/
structure Program (capacity : Nat) (code : List Instr) (debug : List Debug) : Prop where
  last : ∃ front i, code = front ++ [i] ∧ i.opcode = .halt ∧ ∀ j ∈ front, j.opcode ≠ .halt
  debug : debug.length = code.length
  jumps : ∀ i ∈ code, Jumps i → 0 ≤ i.int ∧ i.int < code.length
  room : code.length ≤ capacity

/-- The names contain no end-of-string bytes. -/
def Clean (t : Text) : Prop := nul ∉ t

structure CleanNames (N : Names) (code : List Instr) (debug : List Debug) : Prop where
  opcode : ∀ o, Clean (N.opcode o)
  reg : ∀ k, Clean (N.reg k)
  builtin : ∀ k, Clean (N.builtin k)
  global : ∀ p t, N.global p = some t → Clean t
  real : ∀ b, Clean (N.real b)
  ptr : ∀ p, Clean (N.ptr p)
  debug : ∀ d ∈ debug, Clean d.file ∧ Clean d.fn
  code : ∀ i ∈ code, (∀ t, i.tok = some t → Clean t) ∧ (∀ t, i.type = some t → Clean t) ∧ ∀ k t, i.typeKind = some (k, t) → Clean t

end Umka.Asm.Spec
