import Verif.Cmd.Model
import Verif.Scanf.Spec
/-! # The command line: specification

The usage text: `umka [<parameters>] <file.um> [<script-parameters>]`. -/

namespace Umka.Cmd.Spec

/-- A parameter as the usage text lists it; the stack size as it is written. -/
inductive Param
  | stack (text : Word)
  | asm
  | check
  | warn
  | sandbox
  deriving DecidableEq, Repr

/-- How it is written. -/
def Param.words : Param → List Word
  | .stack t => ["-stack".toList, t]
  | .asm => ["-asm".toList]
  | .check => ["-check".toList]
  | .warn => ["-warn".toList]
  | .sandbox => ["-sandbox".toList]

/-- The words that begin a parameter. -/
def keywords : List Word := ["-stack".toList, "-asm".toList, "-check".toList, "-warn".toList, "-sandbox".toList]

/-- The text is the stack size `n`: a positive number as in a C program, after blanks. -/
def Size (t : Word) (n : Int) : Prop := ∃ sp u, t = sp ++ u ∧ Scanf.Spec.Blank sp ∧ Scanf.Spec.Number 'i' u n ∧ 0 < n ∧ n < 2 ^ 31

/-- The stack sizes asked for, first to last. -/
def stacks (ps : List Param) : List Word := ps.filterMap fun | .stack t => some t | _ => none

/-- The configuration `c` is what the parameters ask for, where `size` is the meaning of the texts of stack sizes. -/
structure Asked (size : Word → Int) (ps : List Param) (c : Config) : Prop where
  stack : c.stackSize = (((stacks ps).map size).getLast?).getD (1024 * 1024)
  asm : c.writeAsm = true ↔ .asm ∈ ps
  check : c.compileOnly = true ↔ .check ∈ ps
  warn : c.printWarnings = true ↔ .warn ∈ ps
  sandbox : c.isSandbox = true ↔ .sandbox ∈ ps

end Umka.Cmd.Spec
