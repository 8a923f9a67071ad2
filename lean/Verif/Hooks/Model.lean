import Verif.Trace.Model
import Verif.Trace.Spec
/-!
# Debug hooks: model

The host can ask to be told when a function has been called and when it is about to return (`umkaSetHook`, `umka_api.c:203-206`; `vmSetHook`,
`umka_vm.c:4327-4330`).  The machine is that of `Frame`; the locations that are reported are those of `Trace`.

Simplifications.  Both hooks are set before the program starts and are not changed; a hook function only takes notes.
-/

namespace Umka.Hooks

open Umka.Frame

/-- A call of a hook: the fiber that runs, `UMKA_HOOK_CALL` or `UMKA_HOOK_RETURN`, and the instruction. -/
structure Ev where
  fiber : Nat
  call : Bool
  ip : Int
  deriving DecidableEq, Repr

/-- The calls of hooks while an instruction is executed without an error: `doHook` in `doEnterFrame` and `doLeaveFrame`, `umka_vm.c:959-966`, `4029-4030`,
`4042-4043`.  Errors in these functions come before the call of the hook. -/
def hook (p : Program) (vm : VM) : List Ev :=
  match p.code (vm.fiber vm.loc).ip with
  | .enter _ => [⟨vm.loc, true, (vm.fiber vm.loc).ip⟩]
  | .leave => [⟨vm.loc, false, (vm.fiber vm.loc).ip⟩]
  | _ => []

/-- What the hook function is told: `debugPerInstr[ip]`, `umka_vm.c:964-965`. -/
def report (code : List Trace.Cell) (e : Ev) : Option (Bool × Trace.Debug) := (code[e.ip.toNat]?).map fun c => (e.call, c.debug)

end Umka.Hooks
