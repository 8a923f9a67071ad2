import Verif.Str.Model
/-!
# HostStr: model

Strings made by the host: `umkaMakeStr` and `umkaGetStrLen` (`umka_api.c:234-245`; `vmMakeStr`, `umka_vm.c:4361-4369`), on the
strings of `Verif.Str.Model`.
-/

namespace Umka.HostStr
open Umka.Str

/-- `vmMakeStr`, `umka_vm.c:4361-4369`.  The argument is the memory of the host that begins at the given pointer; `none` is a null
pointer.  Without a zero byte `strlen` leaves that memory. -/
def makeStr (s : State) : Option (List Nat) → Res (State × Ref)
  | none => .ok (s, .null)
  | some mem =>
    if 0 ∈ mem then do
      let str := mem.takeWhile (· ≠ 0)
      let (s, buf) ← allocStr s str.length
      let s ← writeBytes s buf 0 (str ++ [0])
      return (s, buf)
    else .error .ub

/-- `umkaGetStrLen`, `umka_api.c:240-245`. -/
def getStrLen (s : State) (a : Ref) : Res Nat := if a = .null then .ok 0 else getLen s a

end Umka.HostStr
