import Verif.Scanf.Model
/-!
# The command line: model

The program `umka` (`umka.c:127-213`): its parameters, what it does with the interpreter, and the exit code.

Simplifications.  Arguments are lists of characters without zeros.  The interpreter is a parameter: whether initialization, compilation and
writing of the listing succeed, and how the script ends.  `long` has 64 bits (not so on Windows), `int` has 32 bits, and a `long` is converted to `int` modulo
`2 ^ 32`, as all relevant compilers do; the operating system keeps the low 8 bits of the exit code (POSIX).  The playground (`umka.c:102-122`) is not modelled.
-/

namespace Umka.Cmd

abbrev Word := List Char

/-- `strtol(s, NULL, 0)`: the number at the beginning of the text as in a C program, limited to the range of `long`; 0 if there is none. -/
def strtol (w : Word) : Int :=
  match (Scanf.cNumber none (w.dropWhile Scanf.isSpace)).2 with
  | none => 0
  | some v => if v < -(2 ^ 63) then -(2 ^ 63) else if 2 ^ 63 - 1 < v then 2 ^ 63 - 1 else v

/-- Conversion of a wider integer to `int`. -/
def toInt (v : Int) : Int := (v + 2 ^ 31) % 2 ^ 32 - 2 ^ 31

/-- The interpreter parameters, `umka.c:130-134`, `10-12`. -/
structure Config where
  stackSize : Int := 1024 * 1024
  writeAsm : Bool := false
  compileOnly : Bool := false
  printWarnings : Bool := false
  isSandbox : Bool := false
  deriving DecidableEq, Repr

/-- What the parameters ask for. -/
inductive Parsed
  | noStackSize
  | illegalStackSize
  | help
  | file (c : Config) (name : Word) (args : List Word)
  deriving DecidableEq, Repr

/-- The loop over the parameters and the check for the file name, `umka.c:136-185`.  The list is what is left of `argv`. -/
def parse (c : Config) : List Word → Parsed
  | [] => .help
  | w :: ws =>
    if w.head? = some '-' then
      if w = "-stack".toList then
        match ws with
        | [] => .noStackSize
        | t :: rest =>
          let n := toInt (strtol t)
          if n ≤ 0 then .illegalStackSize else parse { c with stackSize := n } rest
      else if w = "-asm".toList then parse { c with writeAsm := true } ws
      else if w = "-check".toList then parse { c with compileOnly := true } ws
      else if w = "-warn".toList then parse { c with printWarnings := true } ws
      else if w = "-sandbox".toList then parse { c with isSandbox := true } ws
      else .file c w ws
    else .file c w ws

/-- How a script ends: normally, with `exit(code, msg)`, or with a run-time error. -/
inductive Ending
  | normal
  | exit (code : Int) (msg : Word)
  | error (msg : Word)
  deriving DecidableEq, Repr

/-- The result of `umkaRun` (`umka_api.c:49-61, 103-114`): `doBuiltinExit` passes its 64-bit `code` as an `int` (`umka_vm.c:3081-3087`); errors have the code
`ERR_RUNTIME` (`umka_vm.h:45-48`). -/
def umkaRun : Ending → Int
  | .normal => 0
  | .exit code _ => toInt code
  | .error _ => -1

/-- The message of the report. -/
def Ending.msg : Ending → Word
  | .normal => []
  | .exit _ msg => msg
  | .error msg => msg

/-- What is passed to `umkaInit`, `umka.c:188`. -/
structure Init where
  fileName : Word
  stackSize : Int
  argv : List Word
  fileSystem : Bool
  implLibs : Bool
  warnings : Bool
  deriving DecidableEq, Repr

/-- What the program does, in this order. -/
inductive Act
  | complain (p : Parsed)
  | init (i : Init)
  | compile
  | asm
  | run
  | compileError
  | runtimeError (msg : Word)
  deriving DecidableEq, Repr

/-- The interpreter: what succeeds, and how the script ends. -/
structure Interp where
  init : Bool
  compile : Bool
  asm : Bool
  ending : Ending

/-- `printRuntimeError`, `umka.c:79-98`: nothing if there is no message. -/
def printRuntimeError (msg : Word) : List Act := if msg = [] then [] else [.runtimeError msg]

/-- `main` after the parameters, `umka.c:187-212`. -/
def session (I : Interp) (c : Config) (name : Word) (args : List Word) : List Act × Int :=
  let i := Act.init ⟨name, c.stackSize, name :: args, !c.isSandbox, !c.isSandbox, c.printWarnings⟩
  let acts := [i] ++ (if I.init then [.compile] else [])
  let ok := I.init && I.compile
  if ok then
    let acts := acts ++ (if c.writeAsm then [.asm] else [])
    let ok := if c.writeAsm then I.asm else ok
    let running := ok && !c.compileOnly
    let acts := acts ++ (if running then [.run] else [])
    let exitCode := if running then umkaRun I.ending else 0
    let acts := acts ++ (if exitCode ≠ 0 then printRuntimeError I.ending.msg else [])
    (acts, if ok then exitCode else 1)
  else (acts ++ [.compileError], 1)

/-- `main`, `umka.c:127-213`; `argv` without the name of the program. -/
def main (I : Interp) (argv : List Word) : List Act × Int :=
  match parse {} argv with
  | .file c name args => session I c name args
  | p => ([.complain p], 1)

/-- What the shell sees. -/
def status (exitCode : Int) : Int := exitCode % 256

/-- The arguments that the script gets with `std::argc` and `std::argv`: `rtlargv`, `umka_compiler.c:230-242`; `umka_runtime_src.h:418-424`.  `none`: the
index is out of range (area Desig). -/
def argc (i : Init) : Nat := i.argv.length

def argv (i : Init) (k : Nat) : Option Word := i.argv[k]?

end Umka.Cmd
