/-! # The built-in comparison of values: the code

Models `doCompare`, `umka_vm.c:1069-1166`, and `constCompare`, `umka_const.c:117-215`, which is the same
algorithm on compile-time constants.

Types form a graph (`Env`): a structure may contain a dynamic array of itself, so that neither types nor
values need to be finite; the recursion of the C function is therefore bounded by fuel, and running out
of fuel at every bound stands for unbounded recursion.

Simplifications: memory is read through typed accessors (see the area `Arith` for how scalars lie in
memory); loop counters are unbounded; a pointer difference is the difference of the addresses; a real
number is an integer multiple of 2^-1074 (every finite `double` is), an infinity or a NaN, and the sign of
a floating-point difference is that of the exact difference (which IEEE 754 guarantees, thanks to
subnormal numbers). -/

namespace Umka.Compare

/-- An IEEE 754 double. -/
inductive Real
  | nan | posInf | negInf | fin (n : Int)
  deriving DecidableEq, Repr

/-- What a stack slot holds, by the type of the expression: `Slot`, `umka_vm.h:136-145`. -/
inductive Slot
  | int (v : Int)       -- `intVal`, ordinal types except `uint`
  | uint (v : Nat)      -- `uintVal`
  | real (v : Real)     -- `realVal`
  | ptr (v : Nat)       -- `ptrVal`: a pointer, a string, or the address of a structured value
  | weak (v : Nat)      -- `weakPtrVal`
  deriving DecidableEq, Repr

/-- Comparable types: `typeComparableRecursive`, `umka_types.c:319-346`.  Items of structured types are
given by offset and type. -/
inductive Ty
  | int | uint | real | ptr | weakptr | str
  | array (numItems base itemSize : Nat)
  | struct (fields : List (Nat × Nat))      -- offset, type
  | dynarray (base itemSize : Nat)
  deriving DecidableEq, Repr

/-- The type graph. -/
abbrev Env := Nat → Ty

/-- Memory, as seen by the comparison. -/
structure Mem where
  /-- `doDerefImpl`, `umka_vm.c:977-1015`: a scalar, pointer or string variable at an address; structured
  values are represented by their address. -/
  load : Ty → Nat → Slot
  /-- `DynArray` at an address: data pointer and length (0 if there is no data),
  `umka_vm.c:1130-1140`. -/
  dyn : Nat → Nat × Nat
  /-- The bytes of a string before the terminating NUL; the null pointer is the empty string,
  `umka_vm.c:1096-1103`. -/
  str : Nat → List Nat

/-- Result of a comparison. -/
inductive Res
  | ok (d : Int) | ub | fuel | illegal
  deriving DecidableEq, Repr

/-- The dereferenced item at `addr` (`doDerefImpl`): structured types stay an address. -/
def derefItem (m : Mem) (t : Ty) (addr : Nat) : Slot :=
  match t with
  | .array .. | .struct _ | .dynarray .. => .ptr addr
  | t => m.load t addr

/-- `strcmp`, with bytes compared as `unsigned char`. -/
def strcmp : List Nat → List Nat → Int
  | [], [] => 0
  | [], _ :: _ => -1
  | _ :: _, [] => 1
  | a :: as, b :: bs => if a = b then strcmp as bs else (a : Int) - b

/-- `umka_vm.c:1088-1090`: `diff == 0.0 ? 0 : diff > 0.0 ? 1 : -1` where a NaN difference compares
unequal and not greater. -/
def realDiff : Real → Real → Int
  | .fin a, .fin b => if a - b = 0 then 0 else if a - b > 0 then 1 else -1
  | .posInf, .fin _ | .posInf, .negInf | .fin _, .negInf => 1
  | .negInf, .fin _ | .negInf, .posInf | .fin _, .posInf => -1
  | .nan, _ | _, .nan | .posInf, .posInf | .negInf, .negInf => -1

/-- An `int64_t` difference; signed overflow is undefined. -/
def intDiff (a b : Int) : Res := if -2 ^ 63 ≤ a - b ∧ a - b < 2 ^ 63 then .ok (a - b) else .ub

/-- The unsigned difference of weak pointers, converted to `int64_t`. -/
def weakDiff (a b : Nat) : Int := Int.bmod ((a : Int) - b) (2 ^ 64)

/-- `umka_vm.c:1107-1125`: items of an array or fields of a structure, up to the first difference. -/
def compareItems (cmp : Nat → Nat → Res) : List (Nat × Nat) → Res
  | [] => .ok 0
  | (offset, type) :: rest =>
    match cmp offset type with
    | .ok d => if d ≠ 0 then .ok d else compareItems cmp rest
    | e => e

/-- `umka_vm.c:1139-1160`: items of two dynamic arrays.  (`i == len` is written `i ≥ len`.) -/
def compareDyn (cmp : Nat → Res) (lhsLen rhsLen : Nat) (i : Nat) : Res :=
  if i ≥ lhsLen ∧ i ≥ rhsLen then .ok 0
  else if h : i ≥ lhsLen then .ok (-1)
  else if i ≥ rhsLen then .ok 1
  else
    match cmp i with
    | .ok d => if d ≠ 0 then .ok d else compareDyn cmp lhsLen rhsLen (i + 1)
    | e => e
termination_by lhsLen - i

/-- The items of a fixed-size array: offset `i * itemType->size`. -/
def arrayItems (numItems base itemSize : Nat) : List (Nat × Nat) :=
  (List.range numItems).map fun i => (i * itemSize, base)

/-- `doCompare`, `umka_vm.c:1069-1166`. -/
def doCompare (env : Env) (m : Mem) : Nat → Nat → Slot → Slot → Res
  | 0, _, _, _ => .fuel
  | fuel + 1, type, lhs, rhs =>
    match env type, lhs, rhs with
    | .int, .int a, .int b => intDiff a b
    | .uint, .uint a, .uint b => .ok (if a = b then 0 else if a > b then 1 else -1)
    | .real, .real a, .real b => .ok (realDiff a b)
    | .ptr, .ptr a, .ptr b => intDiff a b
    | .weakptr, .weak a, .weak b => .ok (weakDiff a b)
    | .str, .ptr a, .ptr b => .ok (strcmp (m.str a) (m.str b))
    | .array n base size, .ptr a, .ptr b =>
      compareItems (fun offset t =>
        doCompare env m fuel t (derefItem m (env t) (a + offset)) (derefItem m (env t) (b + offset)))
        (arrayItems n base size)
    | .struct fields, .ptr a, .ptr b =>
      compareItems (fun offset t =>
        doCompare env m fuel t (derefItem m (env t) (a + offset)) (derefItem m (env t) (b + offset)))
        fields
    | .dynarray base size, .ptr a, .ptr b =>
      compareDyn (fun i =>
        doCompare env m fuel base (derefItem m (env base) ((m.dyn a).1 + i * size))
          (derefItem m (env base) ((m.dyn b).1 + i * size)))
        (m.dyn a).2 (m.dyn b).2 0
    | _, _, _ => .illegal

/-- The comparison operators on structured values: `doBinary`, `umka_vm.c:3464-3476`. -/
inductive Op
  | eqeq | noteq | greater | less | greatereq | lesseq

def Op.test : Op → Int → Bool
  | .eqeq, d => d == 0
  | .noteq, d => d != 0
  | .greater, d => decide (d > 0)
  | .less, d => decide (d < 0)
  | .greatereq, d => decide (d ≥ 0)
  | .lesseq, d => decide (d ≤ 0)

def compareOp (env : Env) (m : Mem) (fuel : Nat) (op : Op) (type : Nat) (lhs rhs : Slot) : Option Bool :=
  match doCompare env m fuel type lhs rhs with
  | .ok d => some (op.test d)
  | _ => none

end Umka.Compare
