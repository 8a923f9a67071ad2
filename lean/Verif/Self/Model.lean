import Verif.Conv.Model
/-!
# Queries about variables: model

The built-in functions that tell something about the variable behind an interface, `sizeofself`, `selfptr`, `selfhasptr`, `selftypeeq`, and the
one that tells whether a variable has been initialized, `valid` (`umka_vm.c:2902-2999`).

Memory, types and the layout of interfaces are those of `Verif/Iface`; `typeHasPtr` is that of `Verif/Conv`, with the number of types as the bound
on the depth.

Simplifications.  Reading at an address is always possible; that addresses held by variables are those of live data is the subject of `Verif/RefCnt`
and `Verif/Heap`.  `Fiber.alive` is a parameter: where it is stored does not matter.  The functions reach the machine only with operands of the kinds
that the compiler has checked (`umka_expr.c:1430-1520`; `Verif/Builtin`).
-/

namespace Umka.Self

open Umka.Types (Kind)
open Umka.Arith (Slot Mem)
open Umka.Iface (word)
open Umka.Conv (World)

/-- The result: a value, the run-time errors `Interface is null` and `Illegal type`, or undefined behaviour. -/
inductive Res (α : Type)
  | ok (a : α) | nullInterface | illegalType | ub
  deriving DecidableEq

/-- `interface->selfType->base`, if `selfType` is not null.  `.ub`: there is no type at this address. -/
def selfBase (w : World) (m : Mem) (p : Slot) : Res (Option w.T) :=
  if word m (p.toNat + 8) = 0 then .ok none
  else
    match w.e.typeAt (word m (p.toNat + 8)) with
    | none => .ub
    | some t => .ok (some (w.base t))

def Res.bind {α β : Type} : Res α → (α → Res β) → Res β
  | .ok a, f => f a
  | .nullInterface, _ => .nullInterface
  | .illegalType, _ => .illegalType
  | .ub, _ => .ub

/-- `doBuiltinSizeOfSelf` (`umka_vm.c:2902-2913`). -/
def sizeofself (w : World) (m : Mem) (p : Slot) : Res Nat :=
  if p = 0 then .nullInterface
  else (selfBase w m p).bind fun t =>
    match t with
    | none => .ok 0
    | some t => .ok (w.e.size t)

/-- `doBuiltinSelfPtr` (`umka_vm.c:2916-2923`). -/
def selfptr (m : Mem) (p : Slot) : Res Slot := if p = 0 then .nullInterface else .ok (word m p.toNat)

/-- `doBuiltinSelfHasPtr` (`umka_vm.c:2926-2937`). -/
def selfhasptr (w : World) (m : Mem) (p : Slot) : Res Bool :=
  if p = 0 then .nullInterface
  else (selfBase w m p).bind fun t =>
    match t with
    | none => .ok false
    | some t =>
      match w.hasPtr w.e.g.n t with
      | none => .ub
      | some b => .ok b

/-- `doBuiltinSelfTypeEq` (`umka_vm.c:2940-2953`).  `&&` looks at the second type only if there is a first one. -/
def selftypeeq (w : World) (m : Mem) (left right : Slot) : Res Bool :=
  if left = 0 ∨ right = 0 then .nullInterface
  else (selfBase w m left).bind fun l =>
    match l with
    | none => .ok false
    | some l => (selfBase w m right).bind fun r =>
      match r with
      | none => .ok false
      | some r => .ok (w.e.equiv l r)

/-- `doBuiltinValid` (`umka_vm.c:2956-2999`).  `v`: the slot on the top of the stack: the address of a dynamic array (`data` is its third
word, `umka_api.h:73-79`), of a map (`root` is the second one, 82-86), of an interface (`self` is the first one, 89-102) or of a closure (`entryOffset` is
the first one, 105-109), the entry point of a function (converted to `int`, as is the comparison with zero), or a fiber. -/
def valid (alive : Slot → Bool) (m : Mem) (k : Kind) (v : Slot) : Res Bool :=
  match k with
  | .dynarray => .ok (v != 0 && word m (v.toNat + 16) != 0)
  | .map => .ok (v != 0 && word m (v.toNat + 8) != 0)
  | .interface => .ok (v != 0 && word m v.toNat != 0)
  | .fn => .ok (decide (0 < (v.setWidth 32).toInt))
  | .closure => .ok (v != 0 && decide (0 < (word m v.toNat).toInt))
  | .fiber => .ok (v != 0 && alive v)
  | _ => .illegalType

end Umka.Self
