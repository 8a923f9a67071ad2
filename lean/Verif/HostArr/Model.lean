import Verif.DynArr.Model
/-!
# HostArr: dynamic arrays made by the host

Models `umkaMakeDynArray`, `umkaGetDynArrayLen` (umka_api.c:248-260) and `vmMakeDynArray`
(umka_vm.c:4372-4379) on the storage of DynArr.  Simplified: reference counts are left out, as in
DynArr, so the `doRefCntImpl` that releases the old array (umka_vm.c:4377) has no effect here.
-/

namespace Umka.HostArr
open Umka.DynArr

/-- `vmMakeDynArray` (umka_vm.c:4372-4379), called by `umkaMakeDynArray` (umka_api.c:248-251).
`none` is a null `array`; otherwise the variable that `array` points to. -/
def makeArr {α : Type} (c : Cfg) (zero : α) (s : State α) (array : Option Nat) (len : Int) :
    Res (State α) :=
  match array with
  | none => .ok s
  | some v => match alloc c zero s len with
    | .error e => .error e
    | .ok (s, a) => .ok (s.setVar v a)

/-- `umkaGetDynArrayLen` (umka_api.c:254-260). -/
def arrLen {α : Type} (s : State α) (v : Nat) : Res Nat :=
  if s.vars v = .null then .ok 0 else getLen s (s.vars v)

/-- The host's own stores `array->data[i] = x` through the public structure `UmkaDynArray`
(umka_api.h), one item after another, from cell `i` on. -/
def fill {α : Type} (s : State α) (v : Nat) (i : Nat) : List α → Res (State α)
  | [] => .ok s
  | x :: xs => match writeCells s (s.vars v) i [x] with
    | .error e => .error e
    | .ok s => fill s v (i + 1) xs

end Umka.HostArr
