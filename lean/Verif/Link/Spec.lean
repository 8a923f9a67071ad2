import Verif.Link.Model

/-!
# Link: specification
-/

namespace Umka.Link

/-- Starting at `start`, the program comes to the first instruction `e` of the function `f`. -/
def Reaches (code : List Instr) (start : Nat) (f : Fn) (e : Nat) : Prop :=
  code[e]? = some (.enter f) ∧ (start = e ∨ code[start]? = some (.goto e))

/-- The functions with a body in the modules of a program, the first of which has the number `m`, with their calls. -/
def bodies : Nat → List Module → List (Fn × List Fn)
  | _, [] => []
  | m, M :: Ms =>
    M.items.filterMap (fun
      | .proto _ _ => none
      | .fn rcv name calls => some (⟨m, rcv, name⟩, calls)) ++ bodies (m + 1) Ms

/-- The prototypes of a program. -/
def protos : Nat → List Module → List Fn
  | _, [] => []
  | m, M :: Ms =>
    M.items.filterMap (fun
      | .proto rcv name => some ⟨m, rcv, name⟩
      | .fn _ _ _ => none) ++ protos (m + 1) Ms

/-- The documented rule for a prototype without a body (`doc/lang.md:620-628`): the function registered by the host (or the runtime
library) under its name, else the function of the implementation library of the module. -/
def bound (externals : List External) (M : Module) (name : List Char) : Option Entry :=
  match externals.find? (fun e => e.name = name) with
  | some e => e.entry
  | none => (M.lib name).map .lib

/-- The runtime functions that touch files, the environment or the command processor. -/
def touchesOutside : List (List Char) :=
  ["rtlfopen".toList, "rtlfclose".toList, "rtlfread".toList, "rtlfwrite".toList, "rtlfseek".toList, "rtlftell".toList,
   "rtlremove".toList, "rtlfeof".toList, "rtlgetenv".toList, "rtlsystem".toList]

end Umka.Link
