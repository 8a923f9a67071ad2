import Verif.Peephole.Model
/-!
# The peephole optimizer: specification

The meaning of a sequence of requests, executed one by one without any optimization, the meaning of the
generated code, and what it means that two outcomes are the same.
-/

namespace Umka.Peephole
open Umka.Arith (Slot)

namespace Spec
variable {ω : Type}

/-- Errors that only differ in the wording: a null pointer is reported as "Pointer is null", "Array is
null" or "Array or structure is null". -/
def cls : Err → Err
  | .nullArray | .nullStruct => .nullPointer
  | x => x

/-- Two outcomes are the same for the user: the same stack, memory, heap and registers except
`REG_SELF`, or the same error up to wording.  If the program has undefined behaviour, anything is. -/
def Same : R (St ω) → R (St ω) → Prop
  | .ub, _ => True
  | .ok s, .ok s' => s.core = s'.core
  | .err x, .err y => cls x = cls y
  | _, _ => False

/-- A jump takes the condition from the stack: `doGoto`, `doGotoIf`, `doGotoIfNot`
(`umka_vm.c:3809-3831`).  `none`: unconditional, `some b`: if the condition is `b`. -/
def branch (c : Option Bool) (s : St ω) : R (Bool × St ω) :=
  match c with
  | none => .ok (true, s)
  | some b =>
    match s.core.stack with
    | v :: st => .ok ((v != 0) == b, s.withStack st)
    | [] => .ub

/-- What follows the label `l`. -/
def after (l : Nat) : List Item → Option (List Item)
  | [] => none
  | .label l' _ :: its => if l' = l then some its else after l its
  | _ :: its => after l its

/-- Execution of the requests, each as one instruction; `its` is what is left to do, `n` bounds the
number of steps. -/
def run (e : Env ω) (whole : List Item) : Nat → List Item → St ω → Option (R (St ω))
  | 0, _, _ => none
  | _ + 1, [], s => some (.ok s)
  | n + 1, .op i :: its, s =>
    match exec e i s with
    | .ok s => run e whole n its s
    | .err x => some (.err x)
    | .ub => some .ub
  | n + 1, .label _ _ :: its, s => run e whole n its s
  | n + 1, .jump c l _ :: its, s =>
    match branch c s with
    | .ok (true, s) =>
      match after l whole with
      | some its => run e whole n its s
      | none => some .ub
    | .ok (false, s) => run e whole n its s
    | .err x => some (.err x)
    | .ub => some .ub

/-- Execution of generated code (`vmLoop`); a label stands for a position in the code. -/
def runCode (e : Env ω) (whole : List CItem) (labels : List (Nat × Nat)) :
    Nat → List CItem → St ω → Option (R (St ω))
  | 0, _, _ => none
  | _ + 1, [], s => some (.ok s)
  | n + 1, .ins i :: code, s =>
    match exec e i s with
    | .ok s => runCode e whole labels n code s
    | .err x => some (.err x)
    | .ub => some .ub
  | n + 1, .jump c l :: code, s =>
    match branch c s with
    | .ok (true, s) =>
      match labels.lookup l with
      | some pos => runCode e whole labels n (whole.drop pos) s
      | none => some .ub
    | .ok (false, s) => runCode e whole labels n code s
    | .err x => some (.err x)
    | .ub => some .ub

/-- The labels that are placed. -/
def labelsOf : List Item → List Nat
  | [] => []
  | .label l _ :: its => l :: labelsOf its
  | _ :: its => labelsOf its

mutual
/-- The number of bytes of a value that reference counting looks at. -/
def extent : Ty → Nat
  | .ptr | .str | .fiber | .interface => 8
  | .map => 16
  | .dynarray => 24
  | .plain => 0
  | .array n size t => if n = 0 then 0 else size * (n - 1) + extent t
  | .struct fs => extentFields fs
def extentFields : Fields → Nat
  | .nil => 0
  | .cons off t fs => max (off + extent t) (extentFields fs)
end

/-- What type checking guarantees when a request is made: only addresses of global variables and of
constants are pushed as pointers; a variable is zeroed with its whole size; a constant is converted to
`real` according to its own kind.  The constant index of an array fits in 32 bits, and so does the size
of the array. -/
def Fits (e : Env ω) (g : Gen) : Instr → Prop
  | .refCnt _ t =>
    (∀ p, prev g = some (.push .ptr p) → ∀ w m, e.inHeap w p = false ∧ e.strOk w m p = true) ∧
    (∀ off size, prev g = some (.pushLocalPtrZero off size) → extent t ≤ size)
  | .getArrayPtr itemSize len =>
    itemSize * len < 2 ^ 31 ∧
    ∀ v, prev g = some (.push (.ord .int) v) → -2 ^ 31 ≤ v.toInt ∧ v.toInt < 2 ^ 31
  | .callBuiltin (.num f) k =>
    f = .makereal → ∀ k' v, prev g = some (.push k' v) → (k'.arith = .uint ↔ k.arith = .uint)
  | .callBuiltin .makeRealLeft k =>
    ∀ k' v, prev2 g = some (.push k' v) → (k'.arith = .uint ↔ k.arith = .uint)
  | _ => True

/-- Has `REG_SELF` been set, and not been read since, after this request? -/
def selfAfter (self : Bool) : Instr → Bool
  | .popReg .self => true
  | .pushReg .self | .other _ | .callBuiltin .. => false
  | _ => self

/-- `REG_SELF` is read only after it was set. -/
def selfOk (self : Bool) : Instr → Prop
  | .pushReg .self => self = true
  | _ => True

/-- The requests that a parser makes.  `g` is the state of the generator, `self` tells whether
`REG_SELF` has been set and not read since the last label or jump, `jmp` whether the previous request
was a jump (or a label after it): `REG_SELF` is read only after it was set, and a label that does not
inform the optimizer follows a jump. -/
def Proper (e : Env ω) : List Item → Gen → (self jmp : Bool) → Prop
  | [], _, _, _ => True
  | .op i :: its, g, self, _ =>
    Fits e g i ∧ selfOk self i ∧
    ∀ g', gen e g i = .ok g' → Proper e its g' (selfAfter self i) false
  | .label l upd :: its, g, _, jmp =>
    (upd = true ∨ jmp = true) ∧
    ∀ g', genItem e g (.label l upd) = .ok g' → Proper e its g' false jmp
  | .jump c l upd :: its, g, _, _ =>
    ∀ g', genItem e g (.jump c l upd) = .ok g' → Proper e its g' false true

end Spec
end Umka.Peephole
