import Verif.Printf.Model
import Verif.Scanf.Model
/-!
# Convert: model

The conversions between numbers and strings of the standard library, `atoi`, `atof`, `itoa`, `ftoa`, written in Umka on top of `sscanf` and
`sprintf`, which are modelled in the areas Scanf and Printf.  Reals are those of the C library: a type `R` for `sprintf`, the bytes of a
`double` for `sscanf`.
-/

namespace Umka.Convert

open Umka.Arith (Mem)

/-- The outcome of a function: a result, a run-time error, or undefined behaviour of the C library. -/
inductive Res (α : Type)
  | ok (a : α)
  | error
  | undef
  deriving DecidableEq, Repr

/-- The string a call of `sprintf` leaves. -/
def text : Printf.Outcome → Res (List Char)
  | .done s =>
    match s.dest with
    | .str b => .ok (b.bytes.take b.len)
    | _ => .error
  | .fail _ _ => .error
  | .undef => .undef

/-- The argument of `sprintf` for an `int`. -/
def intArg {R : Type} (x : Int) : Printf.Arg R := ⟨.int, .int x, fun _ => .int x, 0⟩

/-- The argument of `sprintf` for a `real`; its text in `%v` is not used. -/
def realArg {R : Type} (x : R) : Printf.Arg R := ⟨.real, .real x, fun _ => .opaque [], 0⟩

/-- `itoa` (`umka_runtime_src.h:331-334`). -/
def itoa {R : Type} (L : Printf.CLib R) (junk : Char) (x : Int) : Res (List Char) := text (Printf.sprintf L junk "%lld".toList [intArg x])

/-- `ftoa` (`umka_runtime_src.h:336-340`). -/
def ftoa {R : Type} (L : Printf.CLib R) (junk : Char) (x : R) (decimals : Int) : Res (List Char) :=
  match text (Printf.sprintf L junk "%%.%lldlf".toList [intArg decimals]) with
  | .ok fmt => text (Printf.sprintf L junk fmt [realArg x])
  | r => r

/-- The address of the local variable. -/
def addr : Nat := 4096

/-- The memory in which the local variable is zero. -/
def zeros : Mem := fun _ => 0

/-- A string variable as a source of `sscanf`: the characters and what follows them in the memory block, or a null pointer. -/
def source (s : Option (List Char × List Char)) : Scanf.Stream :=
  match s with
  | none => .null
  | some (chars, slack) => .str (chars ++ Char.ofNat 0 :: slack) 0

/-- `atoi` (`umka_runtime_src.h:319-323`). -/
def atoi (L : Scanf.CLib) (s : Option (List Char × List Char)) : Res Int :=
  match Scanf.scanf L (source s) "%lld".toList [(.int, addr)] zeros (fun _ => []) with
  | .done st =>
    match Arith.doDeref .int st.mem addr with
    | .ok v => .ok v.toInt
    | _ => .error
  | .fail _ => .error
  | .undef => .undef

/-- `atof` (`umka_runtime_src.h:325-329`), as the bytes of the result. -/
def atof (L : Scanf.CLib) (s : Option (List Char × List Char)) : Res Nat :=
  match Scanf.scanf L (source s) "%lf".toList [(.real, addr)] zeros (fun _ => []) with
  | .done st => .ok (Arith.readBytes st.mem addr 8)
  | .fail _ => .error
  | .undef => .undef

end Umka.Convert
